import Verif.Model.Hash
import Verif.Props.DocJson
import Verif.Props.Diff
import Verif.Props.Formats
import Verif.Lemmas.JsonEnc
import Verif.Lemmas.MapPerm
/-
C71: hashes of bytes and structures; abstract structures.
-/
set_option autoImplicit false
namespace Verif.Hash
open Doc Json JsonG

/-! ### SHA-256 and base58 -/

theorem bigEndian_length (k n : Nat) : (bigEndian k n).length = k := by
  induction k generalizing n with
  | zero => rfl
  | succ k ih => simp [bigEndian, ih]

theorem sha256_length (data : Bytes) : (sha256 data).length = 32 := by
  simp [sha256, bigEndian_length]

theorem alphabet_nodup : alphabet.Nodup := by decide +kernel

/-- the digits of base 58 -/
def digit (c : UInt8) : Option Nat := if c ∈ alphabet then some (alphabet.idxOf c) else none

/-- the number that a text in base 58 stands for -/
def number (s : Bytes) : Option Nat := s.foldlM (fun n c => (digit c).map fun d => n * 58 + d) 0

theorem digit_alphabet (d : Nat) (h : d < 58) : digit (alphabet.getD d 0) = some d := by
  have hl : alphabet.length = 58 := by decide +kernel
  have hg : alphabet.getD d 0 = alphabet[d]'(by omega) := by
    rw [List.getD_eq_getElem?_getD, List.getElem?_eq_getElem (by omega)]; rfl
  rw [hg, digit, if_pos (List.getElem_mem _), alphabet_nodup.idxOf_getElem]

theorem digits58_number (f n : Nat) (h : n < 58 ^ f) : number (digits58 f n) = some n := by
  induction f generalizing n with
  | zero => simp at h; subst h; rfl
  | succ f ih =>
    unfold digits58
    split
    · rename_i h0; subst h0; rfl
    · have hd : n / 58 < 58 ^ f := by rw [Nat.pow_succ] at h; exact Nat.div_lt_of_lt_mul (by omega)
      have := ih _ hd
      unfold number at this ⊢
      rw [List.foldlM_append, this]
      simp only [List.foldlM_cons, List.foldlM_nil, Option.bind_eq_bind, Option.bind_some, digit_alphabet _ (Nat.mod_lt n (by omega : 58 > 0)),
        Option.map_some, Option.pure_def]
      congr 1
      omega

theorem bigNat_fold (n : Nat) (b : Bytes) : (b.foldl (fun n c => n * 256 + c.toNat) n) = n * 256 ^ b.length + bigNat b := by
  unfold bigNat
  induction b generalizing n with
  | nil => simp
  | cons c t ih =>
    simp only [List.foldl_cons, List.length_cons]
    rw [ih, ih (0 * 256 + c.toNat)]
    simp only [Nat.pow_succ, Nat.add_mul, Nat.zero_mul, Nat.zero_add, Nat.mul_assoc, Nat.mul_comm 256]
    omega

theorem bigNat_cons (c : UInt8) (t : Bytes) : bigNat (c :: t) = c.toNat * 256 ^ t.length + bigNat t := by
  have := bigNat_fold (0 * 256 + c.toNat) t
  simpa [bigNat] using this

theorem bigNat_lt (b : Bytes) : bigNat b < 256 ^ b.length := by
  induction b with
  | nil => simp [bigNat]
  | cons c t ih =>
    rw [bigNat_cons, List.length_cons, Nat.pow_succ]
    have : c.toNat ≤ 255 := by have := c.toNat_lt; omega
    have : c.toNat * 256 ^ t.length ≤ 255 * 256 ^ t.length := Nat.mul_le_mul_right _ this
    omega

theorem bigNat_inj (a b : Bytes) (hl : a.length = b.length) (h : bigNat a = bigNat b) : a = b := by
  induction a generalizing b with
  | nil => cases b with
    | nil => rfl
    | cons c t => simp at hl
  | cons c t ih =>
    cases b with
    | nil => simp at hl
    | cons c' t' =>
      simp only [List.length_cons, Nat.add_right_cancel_iff] at hl
      rw [bigNat_cons, bigNat_cons, ← hl] at h
      have h1 := bigNat_lt t
      have h2 := bigNat_lt t'
      rw [← hl] at h2
      have hp : 0 < 256 ^ t.length := Nat.pos_of_ne_zero (by simp)
      have hc : c.toNat = c'.toNat := by
        have e1 : (c.toNat * 256 ^ t.length + bigNat t) / 256 ^ t.length = c.toNat := by
          rw [Nat.mul_comm, Nat.mul_add_div hp, Nat.div_eq_of_lt h1]; rfl
        have e2 : (c'.toNat * 256 ^ t.length + bigNat t') / 256 ^ t.length = c'.toNat := by
          rw [Nat.mul_comm, Nat.mul_add_div hp, Nat.div_eq_of_lt h2]; rfl
        rw [← e1, ← e2, h]
      rw [hc] at h
      rw [UInt8.toNat_inj.mp hc, ih t' hl (by omega)]

/-- the number whose digits a hash is -/
theorem hashBytes_digits (data : Bytes) :
    hashBytes data = digits58 68 (0x1220 * 256 ^ 32 + bigNat (sha256 data)) ∧ bigNat (sha256 data) < 256 ^ 32 := by
  have hl := sha256_length data
  have hlt := bigNat_lt (sha256 data)
  rw [hl] at hlt
  refine ⟨?_, hlt⟩
  unfold hashBytes base58 multihash
  rw [hl]
  have : (List.takeWhile (fun x => decide (x = 0)) (18 :: UInt8.ofNat 32 :: sha256 data)) = [] := by
    rw [List.takeWhile_cons]; rfl
  simp only [this, List.map_nil, List.nil_append, List.length_cons, hl]
  rw [bigNat_cons, bigNat_cons, List.length_cons, hl, ← Nat.add_assoc]
  congr 2

/-- C71: a hash stands for the multihash: the code and length of SHA-256, then the digest -/
theorem C71_decodes (data : Bytes) : number (hashBytes data) = some (0x1220 * 256 ^ 32 + bigNat (sha256 data)) := by
  obtain ⟨h1, h2⟩ := hashBytes_digits data
  rw [h1]
  apply digits58_number
  have : (0x1221 : Nat) * 256 ^ 32 < 58 ^ 68 := by decide +kernel
  omega

/-- C71: two texts have the same hash exactly if they have the same digest -/
theorem C71_injective (a b : Bytes) : hashBytes a = hashBytes b ↔ sha256 a = sha256 b := by
  constructor
  · intro h
    have h1 := C71_decodes a
    rw [h, C71_decodes b, Option.some.injEq] at h1
    exact (bigNat_inj _ _ (by rw [sha256_length, sha256_length]) (by omega))
  · intro h; unfold hashBytes; rw [h]

theorem digits58_split (f k n : Nat) (h : n / 58 ^ k ≠ 0) :
    ∃ t, digits58 (f + k) n = digits58 f (n / 58 ^ k) ++ t ∧ t.length = k ∧ ∀ c ∈ t, c ∈ alphabet := by
  induction k generalizing n with
  | zero => exact ⟨[], by simp, rfl, by simp⟩
  | succ k ih =>
    have e : n / 58 ^ (k + 1) = n / 58 / 58 ^ k := by rw [Nat.pow_succ, Nat.mul_comm, Nat.div_div_eq_div_mul]
    obtain ⟨t, h1, h2, h3⟩ := ih (n / 58) (by rwa [e] at h)
    have hn : n ≠ 0 := by rintro rfl; simp at h
    refine ⟨t ++ [alphabet.getD (n % 58) 0], ?_, by simp [h2], ?_⟩
    · rw [← Nat.add_assoc, digits58, if_neg hn, h1, e, List.append_assoc]
    · intro c hc
      rcases List.mem_append.mp hc with hc | hc
      · exact h3 c hc
      · simp only [List.mem_singleton] at hc
        have := digit_alphabet (n % 58) (Nat.mod_lt n (by omega))
        rw [← hc, digit] at this
        by_cases hm : c ∈ alphabet
        · exact hm
        · simp [hm] at this

/-- C71: a hash consists of `Qm` and 44 further digits -/
theorem C71_form (data : Bytes) : ∃ t, hashBytes data = b!"Qm" ++ t ∧ t.length = 44 ∧ ∀ c ∈ t, c ∈ alphabet := by
  obtain ⟨h1, h2⟩ := hashBytes_digits data
  generalize hn : 0x1220 * 256 ^ 32 + bigNat (sha256 data) = n at h1
  have hd : n / 58 ^ 44 = 23 * 58 + 44 := by
    have lo : (23 * 58 + 44 : Nat) * 58 ^ 44 ≤ 0x1220 * 256 ^ 32 := by decide +kernel
    have hi : (0x1221 : Nat) * 256 ^ 32 ≤ (23 * 58 + 45) * 58 ^ 44 := by decide +kernel
    have h58 : 0 < 58 ^ 44 := by decide +kernel
    apply Nat.div_eq_of_lt_le <;> omega
  obtain ⟨t, h3, h4, h5⟩ := digits58_split 24 44 n (by rw [hd]; decide)
  refine ⟨t, ?_, h4, h5⟩
  rw [h1, show 68 = 24 + 44 from rfl, h3, hd]
  rfl

/-! ### Values that JSON texts tell apart -/

mutual
/-- decoded JSON with numbers that survive: what `FormatConfig` and `Schema` hold in practice -/
def Carried (F : FloatCodec) : Val → Prop
  | .null => True
  | .bool _ => True
  | .f64 x => (FloatOK F x ∨ FloatAsInt F x) ∧ floatFinite x = true ∧ F.parse (F.fmt x) = some x
  | .str s => ValidUtf8 s
  | .arr l => CarriedL F l
  | .obj m => KeysSorted m ∧ CarriedF F m
  | _ => False
def CarriedL (F : FloatCodec) : List Val → Prop
  | [] => True
  | v :: l => Carried F v ∧ CarriedL F l
def CarriedF (F : FloatCodec) : List (Bytes × Val) → Prop
  | [] => True
  | (k, v) :: m => ValidUtf8 k ∧ Carried F v ∧ CarriedF F m
end

mutual
theorem carried_writable (F : FloatCodec) : ∀ v, Carried F v → Writable F v
  | .null, _ => by simp [Writable]
  | .bool _, _ => by simp [Writable]
  | .int _, h => by simp [Carried] at h
  | .gint _, h => by simp [Carried] at h
  | .f64 x, h => by simp only [Carried] at h; exact ⟨h.1, h.2.1⟩
  | .str _, _ => by simp [Writable]
  | .bytes _, h => by simp [Carried] at h
  | .arr l, h => by simp only [Carried] at h; simp only [Writable]; exact carriedL_writable F l h
  | .obj m, h => by simp only [Carried] at h; simp only [Writable]; exact carriedF_writable F m h.2
theorem carriedL_writable (F : FloatCodec) : ∀ l, CarriedL F l → WritableL F l
  | [], _ => by simp [WritableL]
  | v :: l, h => by rw [CarriedL] at h; exact ⟨carried_writable F v h.1, carriedL_writable F l h.2⟩
theorem carriedF_writable (F : FloatCodec) : ∀ m, CarriedF F m → WritableF F m
  | [], _ => by simp [WritableF]
  | (_, v) :: m, h => by rw [CarriedF] at h; exact ⟨carried_writable F v h.2.1, carriedF_writable F m h.2.2⟩
end

theorem norm_float {F : FloatCodec} {x : UInt64} (h : FloatOK F x ∨ FloatAsInt F x) :
    norm F (.f64 x) = .f64 x ∨ ∃ i, norm F (.f64 x) = .int i ∧ F.fmt x = fmtInt i := by
  rcases h with h | ⟨i, hi, he⟩
  · left; simp [norm, atoi_floatOK h]
  · right; exact ⟨i, by simp [norm, he, atoi_fmtInt i hi], he⟩

theorem normF_keys (F : FloatCodec) : ∀ m, CarriedF F m → (normF F m).map (·.1) = m.map (·.1)
  | [], _ => rfl
  | (k, v) :: m, h => by
    rw [CarriedF] at h
    simp [normF, toValidUtf8_valid h.1, normF_keys F m h.2.2]

theorem keysSorted_keys {α β : Type} {m : List (Bytes × α)} {n : List (Bytes × β)} (h : m.map (·.1) = n.map (·.1)) (hn : KeysSorted n) : KeysSorted m := by
  have e : ∀ {γ : Type} (l : List (Bytes × γ)), KeysSorted l ↔ (l.map (·.1)).Pairwise (fun a b => bytesLt a b = true) := by
    intro γ l; rw [List.pairwise_map]; rfl
  rw [e, h, ← e]; exact hn

theorem norm_obj {F : FloatCodec} {m : List (Bytes × Val)} (h : Carried F (.obj m)) : norm F (.obj m) = .obj (normF F m) := by
  simp only [Carried] at h
  simp only [norm]
  rw [mapOf_sorted (keysSorted_keys (normF_keys F m h.2) h.1)]

mutual
theorem norm_inj (F : FloatCodec) : ∀ v w, Carried F v → Carried F w → norm F v = norm F w → v = w
  | .int _, _, h, _, _ | .gint _, _, h, _, _ | .bytes _, _, h, _, _ => by simp [Carried] at h
  | _, .int _, _, h, _ | _, .gint _, _, h, _ | _, .bytes _, _, h, _ => by simp [Carried] at h
  | .f64 x, .f64 y, h1, h2, h => by
    simp only [Carried] at h1 h2
    rcases norm_float h1.1 with a | ⟨i, a, a'⟩ <;> rcases norm_float h2.1 with b | ⟨j, b, b'⟩ <;> rw [a, b] at h <;> try cases h
    · rfl
    · have := h1.2.2; rw [a', ← b', h2.2.2] at this; cases this; rfl
  | .f64 x, w, h1, h2, h => by
    simp only [Carried] at h1
    rcases norm_float h1.1 with a | ⟨i, a, a'⟩ <;> rw [a] at h <;> cases w <;> simp [Carried, norm] at h2 h
    · rename_i y
      rcases norm_float h2.1 with b | ⟨j, b, b'⟩ <;> simp only [norm] at b <;> rw [b] at h <;> cases h
      rfl
    · rename_i y
      rcases norm_float h2.1 with b | ⟨j, b, b'⟩ <;> simp only [norm] at b <;> rw [b] at h <;> cases h
      have := h1.2.2; rw [a', ← b', h2.2.2] at this; cases this; rfl
  | v, .f64 y, h1, h2, h => by
    simp only [Carried] at h2
    rcases norm_float h2.1 with a | ⟨i, a, a'⟩ <;> rw [a] at h <;> cases v <;> simp [Carried, norm] at h1 h
    · rename_i x
      rcases norm_float h1.1 with b | ⟨j, b, b'⟩ <;> simp only [norm] at b <;> rw [b] at h <;> cases h
      rfl
    · rename_i x
      rcases norm_float h1.1 with b | ⟨j, b, b'⟩ <;> simp only [norm] at b <;> rw [b] at h <;> cases h
      have := h1.2.2; rw [b', ← a', h2.2.2] at this; cases this; rfl
  | .null, .null, _, _, _ => rfl
  | .bool _, .bool _, _, _, h => by simpa [norm] using h
  | .str a, .str b, h1, h2, h => by
    simp only [Carried] at h1 h2
    simpa [norm, toValidUtf8_valid h1, toValidUtf8_valid h2] using h
  | .arr l, .arr k, h1, h2, h => by
    simp only [Carried] at h1 h2
    simp only [norm, Val.arr.injEq] at h
    rw [normL_inj F l k h1 h2 h]
  | .obj l, .obj k, h1, h2, h => by
    rw [norm_obj h1, norm_obj h2, Val.obj.injEq] at h
    simp only [Carried] at h1 h2
    rw [normF_inj F l k h1.2 h2.2 h]
  | .null, .bool _, _, _, h | .null, .str _, _, _, h | .null, .arr _, _, _, h | .null, .obj _, _, _, h
  | .bool _, .null, _, _, h | .bool _, .str _, _, _, h | .bool _, .arr _, _, _, h | .bool _, .obj _, _, _, h
  | .str _, .null, _, _, h | .str _, .bool _, _, _, h | .str _, .arr _, _, _, h | .str _, .obj _, _, _, h
  | .arr _, .null, _, _, h | .arr _, .bool _, _, _, h | .arr _, .str _, _, _, h | .arr _, .obj _, _, _, h
  | .obj _, .null, _, _, h | .obj _, .bool _, _, _, h | .obj _, .str _, _, _, h | .obj _, .arr _, _, _, h => by simp [norm] at h
theorem normL_inj (F : FloatCodec) : ∀ l k, CarriedL F l → CarriedL F k → normL F l = normL F k → l = k
  | [], [], _, _, _ => rfl
  | [], _ :: _, _, _, h => by simp [normL] at h
  | _ :: _, [], _, _, h => by simp [normL] at h
  | v :: l, w :: k, h1, h2, h => by
    rw [CarriedL] at h1 h2
    simp only [normL, List.cons.injEq] at h
    rw [norm_inj F v w h1.1 h2.1 h.1, normL_inj F l k h1.2 h2.2 h.2]
theorem normF_inj (F : FloatCodec) : ∀ l k, CarriedF F l → CarriedF F k → normF F l = normF F k → l = k
  | [], [], _, _, _ => rfl
  | [], _ :: _, _, _, h => by simp [normF] at h
  | _ :: _, [], _, _, h => by simp [normF] at h
  | (a, v) :: l, (b, w) :: k, h1, h2, h => by
    rw [CarriedF] at h1 h2
    simp only [normF, List.cons.injEq, Prod.mk.injEq, toValidUtf8_valid h1.1, toValidUtf8_valid h2.1] at h
    rw [h.1.1, norm_inj F v w h1.2.1 h2.2.1 h.1.2, normF_inj F l k h1.2.2 h2.2.2 h.2]
end

/-- a text has one meaning -/
theorem text_inj {F : FloatCodec} {v w : Val} (hv : Writable F v) (hw : Writable F w) (h : enc F v = enc F w) : norm F v = norm F w := by
  have h1 := readValue_text (enc_text F v hv) (2 * (enc F v).length + 1) [] (by simp) (by intro c t e; cases e)
  have h2 := readValue_text (enc_text F w hw) (2 * (enc F v).length + 1) [] (by rw [h]; simp) (by intro c t e; cases e)
  rw [← h, h1] at h2
  injection h2

/-! ### Structures -/

/-- texts in valid UTF-8, numbers of type int, maps of decoded JSON -/
structure Textual (F : FloatCodec) (s : Structure) : Prop where
  checksum : ValidUtf8 s.checksum
  compression : ValidUtf8 s.compression
  depth : IsInt64 s.depth
  encoding : ValidUtf8 s.encoding
  errCount : IsInt64 s.errCount
  entries : IsInt64 s.entries
  format : ValidUtf8 s.format
  formatConfig : ∀ m, s.formatConfig = some m → Carried F (.obj m)
  length : IsInt64 s.length
  path : ValidUtf8 s.path
  qri : ValidUtf8 s.qri
  schema : ∀ m, s.schema = some m → Carried F (.obj m)

/-- the structure is written as a reference: its path, nothing else -/
abbrev IsRef (s : Structure) : Prop := s.path ≠ [] ∧ s.encoding = [] ∧ s.schema = none

theorem present_names (fs : Fields) : ∀ kv ∈ present fs, (kv.1, some kv.2) ∈ fs := by
  intro kv h
  simp only [present, List.mem_filterMap, Option.map_eq_some_iff] at h
  obtain ⟨f, hf, v, hv, rfl⟩ := h
  obtain ⟨n, o⟩ := f
  simp only at hv
  subst hv; exact hf

theorem normF_map (F : FloatCodec) (m : List (Bytes × Val)) : normF F m = m.map fun kv => (toValidUtf8 0 kv.1, norm F kv.2) := by
  induction m with
  | nil => rfl
  | cons x t ih => obtain ⟨k, v⟩ := x; simp [normF, ih]

theorem present_sub (fs : Fields) : List.Sublist ((present fs).map (·.1)) (fs.map (·.1)) := by
  induction fs with
  | nil => exact List.Sublist.refl _
  | cons f t ih =>
    obtain ⟨n, o⟩ := f
    cases o with
    | none => simpa [present] using ih.cons n
    | some v => simpa [present] using ih.cons_cons n

theorem mapGet_present (fs : Fields) (hn : (fs.map (·.1)).Nodup) (k : Bytes) : mapGet (present fs) k = lookupF fs k := by
  induction fs with
  | nil => rfl
  | cons f t ih =>
    obtain ⟨n, o⟩ := f
    simp only [List.map_cons, List.nodup_cons] at hn
    by_cases h : n = k
    · subst h
      cases o with
      | none =>
        simp only [present, List.filterMap_cons, Option.map_none, lookupF, List.find?_cons, decide_true, Option.bind_some]
        have := ih hn.2
        rw [present] at this
        rw [this, lookupF, List.find?_eq_none.2]
        · rfl
        · intro f hf
          simp only [decide_eq_true_eq]
          intro e
          exact hn.1 (List.mem_map.2 ⟨f, hf, e⟩)
      | some v => simp [present, lookupF, mapGet]
    · have := ih hn.2
      cases o with
      | none => simpa [present, lookupF, h] using this
      | some v =>
        have hk : ¬ k = n := fun e => h e.symm
        simpa [present, lookupF, h, mapGet, hk] using this

theorem mapGet_norm (F : FloatCodec) (fs : Fields) (hn : (fs.map (·.1)).Nodup) (hu : ∀ n ∈ fs.map (·.1), ValidUtf8 n) (k : Bytes) :
    mapGet (mapOf (normF F (present fs))) k = (lookupF fs k).map (norm F) := by
  have hkeys : normF F (present fs) = (present fs).map fun kv => (kv.1, norm F kv.2) := by
    rw [normF_map]
    apply List.map_congr_left
    intro kv hkv
    rw [toValidUtf8_valid (hu kv.1 (List.mem_map.2 ⟨_, present_names fs kv hkv, rfl⟩))]
  have hnd : KeysNodup (normF F (present fs)) := by
    rw [hkeys]
    unfold KeysNodup
    rw [List.map_map]
    exact (present_sub fs).nodup hn
  unfold mapOf
  rw [mapGet_foldSet_nodup hnd, hkeys, ← mapGet_present fs hn]
  simp only [mapGet, Option.or_none]
  induction present fs with
  | nil => rfl
  | cons x t ih =>
    obtain ⟨a, b⟩ := x
    by_cases h : k = a <;> simp [mapGet, h, ih]

theorem names_structure (s : Structure) : s.fields.map (·.1) = [b!"checksum", b!"compression", b!"depth", b!"encoding", b!"errCount", b!"entries",
    b!"format", b!"formatConfig", b!"length", b!"path", b!"qri", b!"schema", b!"strict"] := rfl

theorem nodup_structure (s : Structure) : (s.fields.map (·.1)).Nodup := by rw [names_structure]; decide +kernel

theorem utf8_structure (s : Structure) : ∀ n ∈ s.fields.map (·.1), ValidUtf8 n := by
  rw [names_structure]
  intro n hn
  apply Diff.validAscii
  have : ∀ n ∈ [b!"checksum", b!"compression", b!"depth", b!"encoding", b!"errCount", b!"entries",
    b!"format", b!"formatConfig", b!"length", b!"path", b!"qri", b!"schema", b!"strict"], n.all (fun b => decide (b.toNat < 128)) = true := by decide +kernel
  exact this n hn

theorem writableF_iff (F : FloatCodec) (m : List (Bytes × Val)) : WritableF F m ↔ ∀ kv ∈ m, Writable F kv.2 := by
  induction m with
  | nil => simp [WritableF]
  | cons x t ih => obtain ⟨k, v⟩ := x; simp [WritableF, ih]

theorem omitMap_writable {F : FloatCodec} {o : Option (List (Bytes × Val))} (h : ∀ m, o = some m → Carried F (.obj m)) (v : Val) (hv : omitMap o = some v) :
    Writable F v := by
  unfold omitMap at hv
  split at hv
  · cases hv
  · cases hv
  · cases hv; exact carried_writable F _ (h _ rfl)

theorem fields_writable {F : FloatCodec} {s : Structure} (h : Textual F s) : Writable F (.obj (present s.fields)) := by
  simp only [Writable]
  rw [writableF_iff]
  rintro ⟨k, v⟩ hkv
  have hm := present_names _ _ hkv
  simp only [Structure.fields, List.mem_cons, Prod.mk.injEq, List.not_mem_nil, or_false] at hm
  have hstr : ∀ t, omitStr t = some v → Writable F v := by
    intro t e; unfold omitStr at e; split at e <;> cases e; simp [Writable]
  have hint : ∀ i, IsInt64 i → omitInt i = some v → Writable F v := by
    intro i hi e; unfold omitInt at e; split at e <;> cases e; exact hi
  rcases hm with ⟨_, e⟩ | ⟨_, e⟩ | ⟨_, e⟩ | ⟨_, e⟩ | ⟨_, e⟩ | ⟨_, e⟩ | ⟨_, e⟩ | ⟨_, e⟩ | ⟨_, e⟩ | ⟨_, e⟩ | ⟨_, e⟩ | ⟨_, e⟩ | ⟨_, e⟩
  · exact hstr _ e.symm
  · exact hstr _ e.symm
  · exact hint _ h.depth e.symm
  · exact hstr _ e.symm
  · exact hint _ h.errCount e.symm
  · exact hint _ h.entries e.symm
  · cases e; simp [Writable]
  · exact omitMap_writable h.formatConfig _ e.symm
  · exact hint _ h.length e.symm
  · exact hstr _ e.symm
  · cases e; simp [Writable]
  · exact omitMap_writable h.schema _ e.symm
  · unfold omitBool at e; split at e <;> cases e; simp [Writable]

theorem omitStr_inj {F : FloatCodec} {a b : Bytes} (ha : ValidUtf8 a) (hb : ValidUtf8 b) (h : (omitStr a).map (norm F) = (omitStr b).map (norm F)) : a = b := by
  unfold omitStr at h
  by_cases h1 : a = [] <;> by_cases h2 : b = [] <;> simp [h1, h2, norm, toValidUtf8_valid ha, toValidUtf8_valid hb] at h ⊢
  exact h

theorem omitInt_inj {F : FloatCodec} {a b : Int} (h : (omitInt a).map (norm F) = (omitInt b).map (norm F)) : a = b := by
  unfold omitInt at h
  by_cases h1 : a = 0 <;> by_cases h2 : b = 0 <;> simp [h1, h2, norm] at h ⊢
  exact h

theorem omitMap_inj {F : FloatCodec} {a b : Option (List (Bytes × Val))} (ha : ∀ m, a = some m → Carried F (.obj m)) (hb : ∀ m, b = some m → Carried F (.obj m))
    (h : (omitMap a).map (norm F) = (omitMap b).map (norm F)) : normMap a = normMap b := by
  rcases a with _ | (_ | ⟨x, a⟩) <;> rcases b with _ | (_ | ⟨y, b⟩) <;> simp [omitMap, normMap] at h ⊢
  have := norm_inj F _ _ (ha _ rfl) (hb _ rfl) h
  simpa using this

theorem kindOr_utf8 {q : Bytes} (h : ValidUtf8 q) : ValidUtf8 (kindOr q kindStructure) := by
  unfold kindOr
  split
  · exact Diff.validAscii (by decide +kernel)
  · exact h

theorem fields_inj {F : FloatCodec} {s₁ s₂ : Structure} (h₁ : Textual F s₁) (h₂ : Textual F s₂)
    (h : enc F (.obj (present s₁.fields)) = enc F (.obj (present s₂.fields))) :
    ({ s₁ with qri := kindOr s₁.qri kindStructure, formatConfig := normMap s₁.formatConfig, schema := normMap s₁.schema } : Structure) =
    { s₂ with qri := kindOr s₂.qri kindStructure, formatConfig := normMap s₂.formatConfig, schema := normMap s₂.schema } := by
  have hn := text_inj (fields_writable h₁) (fields_writable h₂) h
  simp only [norm, Val.obj.injEq] at hn
  have hk : ∀ k, (lookupF s₁.fields k).map (norm F) = (lookupF s₂.fields k).map (norm F) := by
    intro k
    rw [← mapGet_norm F _ (nodup_structure s₁) (utf8_structure s₁), ← mapGet_norm F _ (nodup_structure s₂) (utf8_structure s₂), hn]
  have e1 := omitStr_inj h₁.checksum h₂.checksum (hk b!"checksum")
  have e2 := omitStr_inj h₁.compression h₂.compression (hk b!"compression")
  have e3 := omitInt_inj (hk b!"depth")
  have e4 := omitStr_inj h₁.encoding h₂.encoding (hk b!"encoding")
  have e5 := omitInt_inj (hk b!"errCount")
  have e6 := omitInt_inj (hk b!"entries")
  have e7 : (some (norm F (.str s₁.format)) : Option Val) = some (norm F (.str s₂.format)) := hk b!"format"
  have e8 := omitMap_inj h₁.formatConfig h₂.formatConfig (hk b!"formatConfig")
  have e9 := omitInt_inj (hk b!"length")
  have e10 := omitStr_inj h₁.path h₂.path (hk b!"path")
  have e11 : (some (norm F (.str (kindOr s₁.qri kindStructure))) : Option Val) = some (norm F (.str (kindOr s₂.qri kindStructure))) := hk b!"qri"
  have e12 := omitMap_inj h₁.schema h₂.schema (hk b!"schema")
  have e13 : (omitBool s₁.strict).map (norm F) = (omitBool s₂.strict).map (norm F) := hk b!"strict"
  simp only [norm, toValidUtf8_valid h₁.format, toValidUtf8_valid h₂.format, Option.some.injEq, Val.str.injEq] at e7
  simp only [norm, toValidUtf8_valid (kindOr_utf8 h₁.qri), toValidUtf8_valid (kindOr_utf8 h₂.qri), Option.some.injEq, Val.str.injEq] at e11
  have e13' : s₁.strict = s₂.strict := by
    cases a : s₁.strict <;> cases b : s₂.strict <;> simp [a, b, omitBool] at e13 ⊢
  simp [e1, e2, e3, e4, e5, e6, e7, e8, e9, e10, e11, e12, e13']

theorem marshal_ref (F : FloatCodec) {s : Structure} (h : IsRef s) : marshalStructure F s = some (enc F (.str s.path)) := if_pos h

theorem marshal_obj {F : FloatCodec} {s : Structure} (h : ¬ IsRef s) (ht : Textual F s) : marshalStructure F s = some (enc F (.obj (present s.fields))) := by
  unfold marshalStructure
  rw [if_neg h, if_pos (jsonOK_writable F _ (fields_writable ht))]

theorem kept_fields {s : Structure} (h : ¬ IsRef s) : s.kept.fields = s.fields ∧ s.kept.qri ≠ [] := by
  unfold Structure.kept
  rw [if_neg h]
  have hm : ∀ m : Option (List (Bytes × Val)), omitMap (normMap m) = omitMap m := by
    intro m; rcases m with _ | (_ | ⟨x, m⟩) <;> rfl
  have hq : kindOr s.qri kindStructure ≠ [] := by
    unfold kindOr; split
    · decide
    · assumption
  have hk : kindOr (kindOr s.qri kindStructure) kindStructure = kindOr s.qri kindStructure := by
    rw [kindOr, if_neg hq]
  refine ⟨?_, hq⟩
  simp only [Structure.fields, hm, hk]

/-- C71: the texts of two structures are the same exactly if the structures survive JSON alike: as references with
the same path, or with the same fields but for a kind left out and maps without entries -/
theorem C71_structure_text (F : FloatCodec) (s₁ s₂ : Structure) (h₁ : Textual F s₁) (h₂ : Textual F s₂) :
    marshalStructure F s₁ = marshalStructure F s₂ ↔ s₁.kept = s₂.kept := by
  have head : ∀ (p : Bytes) (m : List (Bytes × Val)), enc F (.str p) ≠ enc F (.obj m) := by
    intro p m h; simp [enc, jsonStr] at h
  by_cases r1 : IsRef s₁ <;> by_cases r2 : IsRef s₂
  · rw [marshal_ref F r1, marshal_ref F r2, Structure.kept, Structure.kept, if_pos r1, if_pos r2]
    constructor
    · intro h
      have := text_inj (F := F) (v := .str s₁.path) (w := .str s₂.path) (by simp [Writable]) (by simp [Writable]) (by simpa using h)
      simp only [norm, toValidUtf8_valid h₁.path, toValidUtf8_valid h₂.path, Val.str.injEq] at this
      rw [this]
    · intro h
      have : s₁.path = s₂.path := by simpa using congrArg Structure.path h
      rw [this]
  · rw [marshal_ref F r1, marshal_obj r2 h₂]
    constructor
    · intro h; exact absurd (Option.some.inj h) (head _ _)
    · intro h
      have h2 := (kept_fields r2).2
      rw [← h, Structure.kept, if_pos r1] at h2
      exact absurd rfl h2
  · rw [marshal_obj r1 h₁, marshal_ref F r2]
    constructor
    · intro h; exact absurd (Option.some.inj h).symm (head _ _)
    · intro h
      have h2 := (kept_fields r1).2
      rw [h, Structure.kept, if_pos r2] at h2
      exact absurd rfl h2
  · rw [marshal_obj r1 h₁, marshal_obj r2 h₂]
    constructor
    · intro h
      unfold Structure.kept
      rw [if_neg r1, if_neg r2]
      exact fields_inj h₁ h₂ (Option.some.inj h)
    · intro h
      rw [← (kept_fields r1).1, ← (kept_fields r2).1, h]

/-- C71: so do their hashes, unless SHA-256 collides on the two texts -/
theorem C71_structure_hash (F : FloatCodec) (s₁ s₂ : Structure) (h₁ : Textual F s₁) (h₂ : Textual F s₂)
    (hsha : ∀ a b, marshalStructure F s₁ = some a → marshalStructure F s₂ = some b → sha256 a = sha256 b → a = b) :
    hash F s₁ = hash F s₂ ↔ s₁.kept = s₂.kept := by
  rw [← C71_structure_text F s₁ s₂ h₁ h₂]
  unfold hash jsonHash
  cases e1 : marshalStructure F s₁ with
  | none => cases e2 : marshalStructure F s₂ <;> simp
  | some a =>
    cases e2 : marshalStructure F s₂ with
    | none => simp
    | some b =>
      simp only [Option.map_some, Option.some.injEq, C71_injective]
      exact ⟨hsha a b e1 e2, fun h => by rw [h]⟩

/-- the violation: structures with a path but neither encoding nor schema all hash like references; format, length, checksum and the rest do not matter -/
theorem C71_reference_hash (F : FloatCodec) (s : Structure) (h : s.path ≠ []) (he : s.encoding = []) (hs : s.schema = none) :
    hash F s = some (hashBytes (enc F (.str s.path))) ∧ hash F s = hash F (newStructureRef s.path) := by
  have r1 : IsRef s := ⟨h, he, hs⟩
  have r2 : IsRef (newStructureRef s.path) := ⟨h, rfl, rfl⟩
  unfold hash jsonHash
  rw [marshal_ref F r1, marshal_ref F r2]
  exact ⟨rfl, rfl⟩

/-- C71: hashing fails exactly if a map holds a number that is not finite and the structure is no reference -/
theorem C71_hash_fails (F : FloatCodec) (s : Structure) :
    hash F s = none ↔ ¬ IsRef s ∧ ((∃ m, s.formatConfig = some m ∧ jsonOK (.obj m) = false) ∨ ∃ m, s.schema = some m ∧ jsonOK (.obj m) = false) := by
  have hF : ∀ l : List (Bytes × Val), jsonOKF l = true ↔ ∀ kv ∈ l, jsonOK kv.2 = true := by
    intro l
    induction l with
    | nil => simp [jsonOKF]
    | cons x t ih => obtain ⟨k, v⟩ := x; simp [jsonOKF, ih]
  have hmap : ∀ o : Option (List (Bytes × Val)), (∃ v, omitMap o = some v ∧ jsonOK v = false) ↔ ∃ m, o = some m ∧ jsonOK (.obj m) = false := by
    intro o
    rcases o with _ | (_ | ⟨x, m⟩) <;> simp [omitMap, jsonOK, jsonOKF]
  unfold hash jsonHash marshalStructure
  rw [Option.map_eq_none_iff]
  by_cases r : IsRef s
  · simp [r]
  · rw [if_neg (show ¬ (s.path ≠ [] ∧ s.encoding = [] ∧ s.schema = none) from r)]
    simp only [r, not_false_eq_true, true_and, ← hmap]
    constructor
    · intro h
      have hb : jsonOK (.obj (present s.fields)) = false := by
        cases e : jsonOK (.obj (present s.fields)) with
        | false => rfl
        | true => simp [e] at h
      have : ¬ ∀ kv ∈ present s.fields, jsonOK kv.2 = true := by
        rw [← hF]; simpa [jsonOK] using hb
      rw [Classical.not_forall] at this
      obtain ⟨⟨k, v⟩, hkv⟩ := this
      rw [Classical.not_imp] at hkv
      have hm := present_names _ _ hkv.1
      have hno : jsonOK v = false := by simpa using hkv.2
      simp only [Structure.fields, List.mem_cons, Prod.mk.injEq, List.not_mem_nil, or_false] at hm
      have hstr : ∀ t, some v ≠ omitStr t := by
        intro t e; unfold omitStr at e; split at e <;> cases e; simp [jsonOK] at hno
      have hint : ∀ i, some v ≠ omitInt i := by
        intro t e; unfold omitInt at e; split at e <;> cases e; simp [jsonOK] at hno
      rcases hm with ⟨_, e⟩ | ⟨_, e⟩ | ⟨_, e⟩ | ⟨_, e⟩ | ⟨_, e⟩ | ⟨_, e⟩ | ⟨_, e⟩ | ⟨_, e⟩ | ⟨_, e⟩ | ⟨_, e⟩ | ⟨_, e⟩ | ⟨_, e⟩ | ⟨_, e⟩
      · exact absurd e (hstr _)
      · exact absurd e (hstr _)
      · exact absurd e (hint _)
      · exact absurd e (hstr _)
      · exact absurd e (hint _)
      · exact absurd e (hint _)
      · cases e; simp [jsonOK] at hno
      · exact .inl ⟨_, e.symm, hno⟩
      · exact absurd e (hint _)
      · exact absurd e (hstr _)
      · cases e; simp [jsonOK] at hno
      · exact .inr ⟨_, e.symm, hno⟩
      · unfold omitBool at e; split at e <;> cases e; simp [jsonOK] at hno
    · intro h
      rw [if_neg]
      intro hok
      simp only [jsonOK] at hok
      rw [hF] at hok
      have hp : ∀ n v, (n, some v) ∈ s.fields → (n, v) ∈ present s.fields := by
        intro n v hm; exact List.mem_filterMap.2 ⟨_, hm, rfl⟩
      rcases h with ⟨v, hv, hn⟩ | ⟨v, hv, hn⟩
      · have := hok _ (hp b!"formatConfig" v (by rw [← hv]; simp [Structure.fields]))
        rw [hn] at this; cases this
      · have := hok _ (hp b!"schema" v (by rw [← hv]; simp [Structure.fields]))
        rw [hn] at this; cases this

/-! ### Abstract structures -/

/-- C71: the abstract form depends on format, its configuration, encoding and strictness only, and tells them apart; it is its own abstract form, and it has
no schema (the violation: the comment promises the schema with standard names) -/
theorem C71_abstract (s t : Structure) :
    (abstract s = abstract t ↔ s.format = t.format ∧ s.formatConfig = t.formatConfig ∧ s.encoding = t.encoding ∧ s.strict = t.strict) ∧
    abstract (abstract s) = abstract s ∧ (abstract s).schema = none ∧ ¬ IsRef (abstract s) := by
  refine ⟨?_, rfl, rfl, fun h => h.1 rfl⟩
  simp only [abstract, Structure.mk.injEq, true_and]
  exact ⟨fun ⟨a, b, c, d⟩ => ⟨b, c, a, d⟩, fun ⟨b, c, a, d⟩ => ⟨a, b, c, d⟩⟩

/-- C71: a tabular schema is asked for exactly for the format names csv and xlsx; so of the structures whose bodies are read as tables those
that spell the format with a dot are not asked (the violation) -/
theorem C71_tabular (s : Structure) :
    (requiresTabularSchema s = true → Formats.dataFormat s = .csv ∨ Formats.dataFormat s = .xlsx) ∧
    (Formats.dataFormat s = .csv ∨ Formats.dataFormat s = .xlsx → (requiresTabularSchema s = false ↔ s.format = b!".csv" ∨ s.format = b!".xlsx")) := by
  obtain ⟨_, _, h3, h4, _⟩ := Formats.dataFormat_cases s
  rw [h3, h4]
  unfold requiresTabularSchema Formats.isCSV Formats.isXLSX
  constructor
  · intro h
    simp only [Bool.or_eq_true, decide_eq_true_eq] at h
    rcases h with h | h <;> simp [h]
  · rintro ((h | h) | (h | h)) <;> simp [h]

/-! ### Examples -/

/-- the hash of no bytes (hash_test.go) -/
example : hashBytes [] = b!"QmdfTbBqBPQ7VNxZEYEj14VmRuZBkqFbiwReogJgS1zR1n" := by decide +kernel
/-- the hash of a structure (structure_test.go) -/
example : hash exF { qri := b!"st:0", format := b!"csv" } = some b!"QmXKrm8qWRuY5HeU12Y6Ld83L9SGCxWfi4BW87a9yGpwfj" := by decide +kernel
/-- the digest of more than a block -/
example : sha256 (List.replicate 120 97) =
    [0x2f, 0x3d, 0x33, 0x54, 0x32, 0xc7, 0x0b, 0x58, 0x0a, 0xf0, 0xe8, 0xe1, 0xb3, 0x67, 0x4a, 0x7c, 0x02, 0x0d, 0x68, 0x3a, 0xa5, 0xf7, 0x3a, 0xaa, 0xed, 0xfd, 0xc5, 0x5a, 0xf9, 0x04, 0xc2, 0x1c] := by decide +kernel
/-- the kind may be left out; members come in the order of the struct -/
example : marshalStructure exF { format := b!"json", errCount := 2, entries := 3, formatConfig := some [], schema := some [(b!"type", .str b!"array")] } =
    some b!"{\"errCount\":2,\"entries\":3,\"format\":\"json\",\"qri\":\"st:0\",\"schema\":{\"type\":\"array\"}}" := by decide +kernel
/-- different structures with the same hash -/
example : hash exF { path := b!"/ipfs/a", format := b!"csv", length := 7 } = hash exF { path := b!"/ipfs/a", format := b!"json" } ∧
    ({ path := b!"/ipfs/a", format := b!"csv", length := 7 } : Structure) ≠ { path := b!"/ipfs/a", format := b!"json" } := by decide +kernel
example : Textual exF { format := b!"csv", length := 12, schema := some [(b!"type", .str b!"array")] } :=
  ⟨.nil, .nil, by decide, .nil, by decide, by decide, Diff.validAscii (by decide +kernel), nofun, by decide, .nil, .nil, by
    rintro m ⟨⟩
    exact ⟨by simp [KeysSorted], Diff.validAscii (by decide +kernel), Diff.validAscii (by decide +kernel), trivial⟩⟩
/-- a number without JSON text -/
example : hash exF { format := b!"csv", schema := some [(b!"x", .f64 0x7ff0000000000000)] } = none := by decide +kernel
example : requiresTabularSchema { format := b!".csv" } = false ∧ requiresTabularSchema { format := b!"csv" } = true := by decide +kernel

end Verif.Hash
