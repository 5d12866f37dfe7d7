import Verif.Model.Cbor
/-
Helper lemmas about the CBOR model.
-/
namespace Verif.Cbor

theorem forall_uint8 {P : UInt8 → Prop} (h : ∀ n, n < 256 → P (UInt8.ofNat n)) (b : UInt8) : P b := by
  have := h b.toNat (by have := b.toNat_lt; simpa using this)
  simpa using this

theorem readBytes_append (d r : Bytes) (h : (d.length : Int) ≤ 4096) :
    readBytes d.length (d ++ r) = .ok d r := by
  have hb : bufSize = 4096 := rfl
  unfold readBytes
  rw [if_neg (by omega), if_neg (by omega), if_neg (by simp; omega)]
  simp

theorem readBytes_short (n : Nat) (s : Bytes) (h : n ≤ 4096) (hs : s.length < n) :
    readBytes n s = .err .eof := by
  have hb : bufSize = 4096 := rfl
  unfold readBytes
  rw [if_neg (by omega), if_neg (by omega), if_pos (by omega)]

theorem readBytes_ok {n : Int} {s d r : Bytes} (h : readBytes n s = .ok d r) : s = d ++ r := by
  unfold readBytes at h
  split at h; · simp at h
  split at h; · simp at h
  split at h; · simp at h
  simp at h
  rw [← h.1, ← h.2]; simp

theorem readIntBytes_toBE (k v : Nat) (r : Bytes) (hk : k ≤ 8) (hv : v < 256 ^ k) :
    readIntBytes k (toBE k v ++ r) = .ok (toInt64 v) r := by
  have hl := toBE_length k v
  have := readBytes_append (toBE k v) r (by omega)
  rw [hl] at this
  simp [readIntBytes, this, beNat_toBE k v hv]

theorem readIntBytes_short (k : Nat) (s : Bytes) (hk : k ≤ 8) (hs : s.length < k) :
    readIntBytes k s = .err .eof := by
  simp [readIntBytes, readBytes_short k s (by omega) hs]

theorem toInt64_small {v : Nat} (h : v < 2^63) : toInt64 v = v := by simp [toInt64, h]

/-- The bytes after the head of `encUint`. -/
def tailLen (v : Nat) : Nat :=
  if v ≤ 0x17 then 0 else if v ≤ 0xff then 1 else if v ≤ 0xffff then 2
  else if v ≤ 0xffffffff then 4 else 8

/-- The low five bits of the head of `encUint`. -/
def headInfo (v : Nat) : Nat :=
  if v ≤ 0x17 then v else if v ≤ 0xff then 0x18 else if v ≤ 0xffff then 0x19
  else if v ≤ 0xffffffff then 0x1a else 0x1b

theorem headInfo_lt (v : Nat) : headInfo v < 0x1c := by
  unfold headInfo; split <;> (try split) <;> (try split) <;> (try split) <;> omega

theorem encUint_eq (base : UInt8) (v : Nat) :
    encUint base v = (base + UInt8.ofNat (headInfo v)) :: toBE (tailLen v) v := by
  unfold encUint headInfo tailLen
  split
  · simp [toBE]
  · split; · rfl
    split; · rfl
    split <;> rfl

/-- major type bytes -/
def IsBase (b : UInt8) : Prop := b = 0x00 ∨ b = 0x20 ∨ b = 0x40 ∨ b = 0x60 ∨ b = 0x80 ∨ b = 0xa0

theorem head_and (base : UInt8) (hb : IsBase base) (k : Nat) (hk : k < 0x1c) :
    (base + UInt8.ofNat k) &&& 0x1f = UInt8.ofNat k ∧ (base + UInt8.ofNat k) &&& 0xe0 = base ∧
    (base + UInt8.ofNat k).toNat = base.toNat + k := by
  have : ∀ k, k < 0x1c → ∀ base ∈ [(0x00 : UInt8), 0x20, 0x40, 0x60, 0x80, 0xa0],
      (base + UInt8.ofNat k) &&& 0x1f = UInt8.ofNat k ∧ (base + UInt8.ofNat k) &&& 0xe0 = base ∧
      (base + UInt8.ofNat k).toNat = base.toNat + k := by decide
  exact this k hk base (by simpa [IsBase] using hb)

theorem getVarLenInt_enc (base : UInt8) (hb : IsBase base) (v : Nat) (hv : v < 2^63) (r : Bytes) :
    getVarLenInt (base + UInt8.ofNat (headInfo v)) (toBE (tailLen v) v ++ r) = .ok v r := by
  have hh := (head_and base hb _ (headInfo_lt v)).1
  unfold getVarLenInt
  simp only [hh]
  unfold headInfo tailLen
  by_cases h0 : v ≤ 0x17
  · simp only [h0, if_true, toBE, List.nil_append]
    have h1 : (UInt8.ofNat v).toNat = v := by simp; omega
    rw [if_pos (by rw [UInt8.lt_iff_toNat_lt, h1]; simpa using (by omega : v < 24)), h1]
  · simp only [h0, if_false]
    by_cases h1 : v ≤ 0xff
    · simp only [h1, if_true]
      rw [show ((1:Int)) = ((1:Nat):Int) from rfl, readIntBytes_toBE 1 v r (by omega) (by omega), toInt64_small hv]
      rfl
    · simp only [h1, if_false]
      by_cases h2 : v ≤ 0xffff
      · simp only [h2, if_true]
        rw [show ((2:Int)) = ((2:Nat):Int) from rfl, readIntBytes_toBE 2 v r (by omega) (by omega), toInt64_small hv]
        rfl
      · simp only [h2, if_false]
        by_cases h3 : v ≤ 0xffffffff
        · simp only [h3, if_true]
          rw [show ((4:Int)) = ((4:Nat):Int) from rfl, readIntBytes_toBE 4 v r (by omega) (by omega), toInt64_small hv]
          rfl
        · simp only [h3, if_false]
          rw [show ((8:Int)) = ((8:Nat):Int) from rfl, readIntBytes_toBE 8 v r (by omega) (by omega), toInt64_small hv]
          rfl

theorem getVarLenInt_short (base : UInt8) (hb : IsBase base) (v : Nat) (p : Bytes)
    (hp : p.length < tailLen v) :
    getVarLenInt (base + UInt8.ofNat (headInfo v)) p = .err .eof := by
  have hh := (head_and base hb _ (headInfo_lt v)).1
  unfold getVarLenInt
  simp only [hh]
  revert hp
  unfold headInfo tailLen
  by_cases h0 : v ≤ 0x17
  · simp [h0]
  · simp only [h0, if_false]
    by_cases h1 : v ≤ 0xff
    · simp only [h1, if_true]; intro hp
      rw [show ((1:Int)) = ((1:Nat):Int) from rfl, readIntBytes_short 1 p (by omega) hp]; rfl
    · simp only [h1, if_false]
      by_cases h2 : v ≤ 0xffff
      · simp only [h2, if_true]; intro hp
        rw [show ((2:Int)) = ((2:Nat):Int) from rfl, readIntBytes_short 2 p (by omega) hp]; rfl
      · simp only [h2, if_false]
        by_cases h3 : v ≤ 0xffffffff
        · simp only [h3, if_true]; intro hp
          rw [show ((4:Int)) = ((4:Nat):Int) from rfl, readIntBytes_short 4 p (by omega) hp]; rfl
        · simp only [h3, if_false]; intro hp
          rw [show ((8:Int)) = ((8:Nat):Int) from rfl, readIntBytes_short 8 p (by omega) hp]; rfl


/-! ### Dispatch of `readValue` on encoder heads -/

theorem toNat_ne {b c : UInt8} (h : b.toNat ≠ c.toNat) : b ≠ c := fun e => h (e ▸ rfl)

theorem readValue_default (f : Nat) (b : UInt8) (s : Bytes) (h1 : 0x40 ≤ b.toNat)
    (h2 : b.toNat < 0xc0) (h3 : b.toNat % 32 < 0x1c) :
    readValue (f+1) (b :: s) =
      (if b &&& 0xe0 = 0x60 then
        (readLengthPrefixedBytes b s).map Val.str
      else if b &&& 0xe0 = 0x40 then
        (readLengthPrefixedBytes b s).map Val.bytes
      else if b &&& 0xe0 = 0x80 then
        match getVarLenInt b s with
        | .err e => .err e
        | .ok len r =>
          if maxCap < len then .err .panic
          else (readArray f len r).map Val.arr
      else if b &&& 0xe0 = 0xa0 then
        match getVarLenInt b s with
        | .err e => .err e
        | .ok len r =>
          (readMap f len [] r).map Val.obj
      else if b &&& 0xe0 = 0xc0 then .ok .null s
      else if b &&& 0xe0 = 0xe0 then .ok .null s
      else .err (.unknownTag b)) := by
  rw [readValue]
  have c1 : ¬ b < 0x1c := by rw [UInt8.lt_iff_toNat_lt]; simp; omega
  have c2 : ¬ (0x20 ≤ b ∧ b < 0x38) := by
    rw [UInt8.lt_iff_toNat_lt, UInt8.le_iff_toNat_le]; simp; omega
  rw [if_neg c1, if_neg c2,
    if_neg (toNat_ne (c := 0xf6) (by simp; omega)), if_neg (toNat_ne (c := 0xf4) (by simp; omega)),
    if_neg (toNat_ne (c := 0xf5) (by simp; omega)), if_neg (toNat_ne (c := 0xf9) (by simp; omega)),
    if_neg (toNat_ne (c := 0xfa) (by simp; omega)), if_neg (toNat_ne (c := 0xfb) (by simp; omega)),
    if_neg (toNat_ne (c := 0x5f) (by simp; omega)), if_neg (toNat_ne (c := 0x7f) (by simp; omega)),
    if_neg (toNat_ne (c := 0x9f) (by simp; omega)), if_neg (toNat_ne (c := 0xbf) (by simp; omega))]
  rfl

theorem readValue_str_head (f : Nat) (k : Nat) (hk : k < 0x1c) (s : Bytes) :
    readValue (f+1) ((0x60 + UInt8.ofNat k) :: s) =
      (readLengthPrefixedBytes (0x60 + UInt8.ofNat k) s).map Val.str := by
  obtain ⟨_, h2, h3⟩ := head_and 0x60 (by simp [IsBase]) k hk
  have h3' : (0x60 + UInt8.ofNat k).toNat = 0x60 + k := h3
  rw [readValue_default _ _ _ (by omega) (by omega) (by omega)]
  simp only [h2]; rfl

theorem readValue_bytes_head (f : Nat) (k : Nat) (hk : k < 0x1c) (s : Bytes) :
    readValue (f+1) ((0x40 + UInt8.ofNat k) :: s) =
      (readLengthPrefixedBytes (0x40 + UInt8.ofNat k) s).map Val.bytes := by
  obtain ⟨_, h2, h3⟩ := head_and 0x40 (by simp [IsBase]) k hk
  have h3' : (0x40 + UInt8.ofNat k).toNat = 0x40 + k := h3
  rw [readValue_default _ _ _ (by omega) (by omega) (by omega)]
  simp only [h2]; rfl

theorem readValue_arr_head (f : Nat) (k : Nat) (hk : k < 0x1c) (s : Bytes) :
    readValue (f+1) ((0x80 + UInt8.ofNat k) :: s) =
      match getVarLenInt (0x80 + UInt8.ofNat k) s with
        | .err e => .err e
        | .ok len r =>
          if maxCap < len then .err .panic
          else (readArray f len r).map Val.arr := by
  obtain ⟨_, h2, h3⟩ := head_and 0x80 (by simp [IsBase]) k hk
  have h3' : (0x80 + UInt8.ofNat k).toNat = 0x80 + k := h3
  rw [readValue_default _ _ _ (by omega) (by omega) (by omega)]
  simp only [h2]; rfl

theorem readValue_obj_head (f : Nat) (k : Nat) (hk : k < 0x1c) (s : Bytes) :
    readValue (f+1) ((0xa0 + UInt8.ofNat k) :: s) =
      match getVarLenInt (0xa0 + UInt8.ofNat k) s with
        | .err e => .err e
        | .ok len r =>
          (readMap f len [] r).map Val.obj := by
  obtain ⟨_, h2, h3⟩ := head_and 0xa0 (by simp [IsBase]) k hk
  have h3' : (0xa0 + UInt8.ofNat k).toNat = 0xa0 + k := h3
  rw [readValue_default _ _ _ (by omega) (by omega) (by omega)]
  simp only [h2]; rfl

theorem readValue_uint_head (f : Nat) (k : Nat) (hk : k < 0x1c) (s : Bytes) :
    readValue (f+1) ((0x00 + UInt8.ofNat k) :: s) =
      (getVarLenInt (0x00 + UInt8.ofNat k) s).map Val.int := by
  obtain ⟨_, h2, h3⟩ := head_and 0x00 (by simp [IsBase]) k hk
  rw [readValue, if_pos (by rw [UInt8.lt_iff_toNat_lt, h3]; simpa using hk)]

theorem readValue_neg_head (f : Nat) (k : Nat) (hk : k < 0x18) (s : Bytes) :
    readValue (f+1) ((0x20 + UInt8.ofNat k) :: s) = .ok (.int (-1 - (k : Int))) s := by
  obtain ⟨_, h2, h3⟩ := head_and 0x20 (by simp [IsBase]) k (by omega)
  have h3' : (0x20 + UInt8.ofNat k).toNat = 0x20 + k := h3
  have h4 : ∀ k, k < 0x18 → ((0x20 + UInt8.ofNat k) - 0x1f : UInt8).toNat = k + 1 := by decide
  rw [readValue, if_neg, if_pos, h4 k hk]
  · congr 2; omega
  · rw [UInt8.lt_iff_toNat_lt, UInt8.le_iff_toNat_le, h3']; simp; omega
  · rw [UInt8.lt_iff_toNat_lt, h3']; simp; omega

theorem lengthPrefixed_enc (base : UInt8) (hb : IsBase base) (d r : Bytes) (h : d.length ≤ 4096) :
    readLengthPrefixedBytes (base + UInt8.ofNat (headInfo d.length)) (toBE (tailLen d.length) d.length ++ (d ++ r))
      = .ok d r := by
  unfold readLengthPrefixedBytes
  rw [getVarLenInt_enc base hb _ (by omega)]
  exact readBytes_append d r (by omega)

theorem readStringKey_enc (d r : Bytes) (h : d.length ≤ 4096) :
    readStringKey (encUint 0x60 d.length ++ (d ++ r)) = .ok d r := by
  rw [encUint_eq]
  have hb : IsBase 0x60 := by simp [IsBase]
  have h2 := (head_and 0x60 hb _ (headInfo_lt d.length)).2.1
  simp only [List.cons_append, readStringKey, h2]
  rw [if_neg (by simp), getVarLenInt_enc 0x60 hb _ (by omega)]
  exact readBytes_append d r (by omega)

/-- The values the reader handles: see property C20. -/
inductive Supported : Val → Prop
  | null : Supported .null
  | bool (b) : Supported (.bool b)
  | int (i : Int) : -24 ≤ i → i < 2^63 → Supported (.int i)
  | f64 (x) : Supported (.f64 x)
  | str (s : Bytes) : s.length ≤ 4096 → Supported (.str s)
  | bytes (s : Bytes) : s.length ≤ 4096 → Supported (.bytes s)
  | arr (l : List Val) : l.length ≤ 2^44 → (∀ v ∈ l, Supported v) → Supported (.arr l)
  | obj (m : List (Bytes × Val)) : m.length < 2^63 → KeysSorted m → (∀ kv ∈ m, kv.1.length ≤ 4096) →
      (∀ kv ∈ m, Supported kv.2) → Supported (.obj m)

theorem encUint_length_pos (base : UInt8) (v : Nat) : 0 < (encUint base v).length := by
  rw [encUint_eq]; simp

theorem enc_length_pos (v : Val) : 0 < (enc v).length := by
  cases v with
  | null => simp [enc]
  | bool b => cases b <;> simp [enc]
  | int i => simp only [enc]; split <;> exact encUint_length_pos _ _
  | gint i => simp only [enc]; split <;> exact encUint_length_pos _ _
  | f64 x => simp [enc]
  | str s => have := encUint_length_pos 0x60 s.length; simp [enc]; omega
  | bytes s => have := encUint_length_pos 0x40 s.length; simp [enc]; omega
  | arr l => have := encUint_length_pos 0x80 l.length; simp [enc]; omega
  | obj m => have := encUint_length_pos 0xa0 m.length; simp [enc]; omega

theorem uint64_roundtrip (x : UInt64) : UInt64.ofNat (beNat (toBE 8 x.toNat)) = x := by
  rw [beNat_toBE 8 _ (by have := x.toNat_lt; simpa using this)]
  simp

theorem readFloat8 (x : UInt64) (r : Bytes) : readFloatBytes 8 (toBE 8 x.toNat ++ r) = .ok x r := by
  have h := readBytes_append (toBE 8 x.toNat) r (by rw [toBE_length]; omega)
  rw [toBE_length] at h
  have h' : readBytes 8 (toBE 8 x.toNat ++ r) = .ok (toBE 8 x.toNat) r := h
  unfold readFloatBytes
  rw [h']
  simp only [uint64_roundtrip]

theorem readValue_f64_head (f : Nat) (s : Bytes) :
    readValue (f+1) (0xfb :: s) = (readFloatBytes 8 s).map Val.f64 := by
  rw [readValue]; rfl

mutual
theorem readValue_enc : ∀ (v : Val), Supported v → ∀ (f : Nat) (r : Bytes),
    2 * (enc v).length + 1 ≤ f → readValue f (enc v ++ r) = .ok v r
  | v, _, 0, _, h => by omega
  | .null, _, f + 1, r, _ => by simp only [enc, List.cons_append, List.nil_append]; rw [readValue]; rfl
  | .bool false, _, f + 1, r, _ => by simp only [enc, List.cons_append, List.nil_append]; rw [readValue]; rfl
  | .bool true, _, f + 1, r, _ => by simp only [enc, List.cons_append, List.nil_append]; rw [readValue]; rfl
  | .gint i, hs, _ + 1, _, _ => by cases hs
  | .int i, hs, f + 1, r, _ => by
    cases hs with
    | int _ h1 h2 =>
    simp only [enc]
    split
    · rename_i hneg
      have hk : (-1 - i).toNat < 0x18 := by omega
      have : encUint 0x20 (-1 - i).toNat = [0x20 + UInt8.ofNat (-1 - i).toNat] := by
        simp [encUint]; omega
      rw [this, List.cons_append, readValue_neg_head _ _ hk]
      have : -1 - ((-1 - i).toNat : Int) = i := by omega
      rw [this]; rfl
    · rw [encUint_eq, List.cons_append, readValue_uint_head _ _ (headInfo_lt _),
        getVarLenInt_enc 0x00 (by simp [IsBase]) _ (by omega)]
      have : (i.toNat : Int) = i := by omega
      rw [this]; rfl
  | .f64 x, _, f + 1, r, _ => by
    simp only [enc, List.cons_append]
    rw [readValue_f64_head, readFloat8]; rfl
  | .str s, hs, f + 1, r, _ => by
    cases hs with
    | str _ h1 =>
    simp only [enc]
    rw [encUint_eq, List.cons_append, List.cons_append, readValue_str_head _ _ (headInfo_lt _),
      List.append_assoc, lengthPrefixed_enc _ (by simp [IsBase]) _ _ h1]; rfl
  | .bytes s, hs, f + 1, r, _ => by
    cases hs with
    | bytes _ h1 =>
    simp only [enc]
    rw [encUint_eq, List.cons_append, List.cons_append, readValue_bytes_head _ _ (headInfo_lt _),
      List.append_assoc, lengthPrefixed_enc _ (by simp [IsBase]) _ _ h1]; rfl
  | .arr l, hs, f + 1, r, hf => by
    cases hs with
    | arr _ h1 h2 =>
    have hp := encUint_length_pos 0x80 l.length
    simp only [enc, List.length_append] at hf
    simp only [enc]
    rw [encUint_eq, List.cons_append, List.cons_append, readValue_arr_head _ _ (headInfo_lt _),
      List.append_assoc, getVarLenInt_enc _ (by simp [IsBase]) _ (by omega)]
    simp only
    have hc : maxCap = 2^44 := rfl
    rw [if_neg (by rw [hc]; omega), readArray_enc l h2 f r (by omega)]; rfl
  | .obj m, hs, f + 1, r, hf => by
    cases hs with
    | obj _ h1 h2 h3 h4 =>
    have hp := encUint_length_pos 0xa0 m.length
    simp only [enc, List.length_append] at hf
    simp only [enc]
    rw [encUint_eq, List.cons_append, List.cons_append, readValue_obj_head _ _ (headInfo_lt _),
      List.append_assoc, getVarLenInt_enc _ (by simp [IsBase]) _ (by omega)]
    simp only
    rw [readMap_enc m h3 h4 f [] r (by omega) (by simpa using h2)]
    rfl
theorem readArray_enc : ∀ (l : List Val), (∀ v ∈ l, Supported v) → ∀ (f : Nat) (r : Bytes),
    2 * (encList l).length + 2 ≤ f → readArray f l.length (encList l ++ r) = .ok l r
  | _, _, 0, _, h => by omega
  | [], _, f + 1, r, _ => by simp [readArray, encList]
  | v :: t, hs, f + 1, r, hf => by
    have hp := enc_length_pos v
    simp only [encList, List.length_append] at hf
    rw [readArray]
    have e1 : ¬ ((v :: t).length : Int) = 0 := by simp; omega
    have e2 : ¬ ((v :: t).length : Int) = -1 := by omega
    have e3 : (0:Int) < ((v :: t).length : Int) := by simp
    rw [if_neg e1, if_neg e2]
    simp only [encList, List.append_assoc]
    rw [readValue_enc v (hs v (by simp)) f _ (by omega)]
    simp only
    rw [if_pos e3]
    have e4 : ((v :: t).length : Int) - 1 = (t.length : Int) := by simp
    rw [e4, readArray_enc t (fun x hx => hs x (by simp [hx])) f r (by omega)]
theorem readMap_enc : ∀ (m : List (Bytes × Val)), (∀ kv ∈ m, kv.1.length ≤ 4096) →
    (∀ kv ∈ m, Supported kv.2) → ∀ (f : Nat) (acc : List (Bytes × Val)) (r : Bytes),
    2 * (encFields m).length + 2 ≤ f → KeysSorted (acc ++ m) →
    readMap f m.length acc (encFields m ++ r) = .ok (acc ++ m) r
  | _, _, _, 0, _, _, h, _ => by omega
  | [], _, _, f + 1, acc, r, _, _ => by simp [readMap, encFields]
  | (k, v) :: t, hk, hs, f + 1, acc, r, hf, hsort => by
    have hp := enc_length_pos v
    have hq := encUint_length_pos 0x60 k.length
    simp only [encFields, List.length_append] at hf
    rw [readMap]
    have e1 : ¬ (((k, v) :: t).length : Int) = 0 := by simp; omega
    have e2 : ¬ (((k, v) :: t).length : Int) = -1 := by omega
    have e3 : (0:Int) < (((k, v) :: t).length : Int) := by simp
    rw [if_neg e1, if_neg e2]
    simp only [encFields, List.append_assoc]
    rw [readStringKey_enc k _ (hk (k, v) (by simp))]
    simp only
    rw [readValue_enc v (hs (k, v) (by simp)) f _ (by omega)]
    simp only
    rw [if_pos e3]
    have e4 : (((k, v) :: t).length : Int) - 1 = (t.length : Int) := by simp
    have e5 : mapSet acc k v = acc ++ [(k, v)] := by
      apply mapSet_append
      intro x hx
      have := List.pairwise_append.mp hsort
      exact this.2.2 x hx (k, v) (by simp)
    rw [e4, e5, readMap_enc t (fun x hx => hk x (by simp [hx])) (fun x hx => hs x (by simp [hx])) f _ r
      (by omega) (by simpa using hsort)]
    simp
end


/-! ### Truncated input -/

theorem split_prefix {α : Type} {a b p q : List α} (h : a ++ b = p ++ q) :
    (∃ a', a' ≠ [] ∧ a = p ++ a') ∨ (∃ b', p = a ++ b' ∧ b = b' ++ q) := by
  rcases List.append_eq_append_iff.mp h with ⟨c, h1, h2⟩ | ⟨c, h1, h2⟩
  · exact Or.inr ⟨c, h1, h2⟩
  · cases c with
    | nil => exact Or.inr ⟨[], by simp_all, by simp_all⟩
    | cons x t => exact Or.inl ⟨x :: t, by simp, h1⟩

theorem length_lt_of_prefix {α : Type} {a p q : List α} (h : a = p ++ q) (hq : q ≠ []) :
    p.length < a.length := by
  have := List.length_pos_iff.mpr hq
  rw [h, List.length_append]; omega

theorem lengthPrefixed_trunc (base : UInt8) (hb : IsBase base) (d p q : Bytes) (h : d.length ≤ 4096)
    (he : toBE (tailLen d.length) d.length ++ d = p ++ q) (hq : q ≠ []) :
    readLengthPrefixedBytes (base + UInt8.ofNat (headInfo d.length)) p = .err .eof := by
  unfold readLengthPrefixedBytes
  rcases split_prefix he with ⟨a', ha, he⟩ | ⟨b', hp, hd⟩
  · have := length_lt_of_prefix he ha
    rw [toBE_length] at this
    rw [getVarLenInt_short base hb _ p this]
  · rw [hp, getVarLenInt_enc base hb _ (by omega)]
    exact readBytes_short _ _ h (length_lt_of_prefix hd hq)

theorem readStringKey_trunc (d p q : Bytes) (h : d.length ≤ 4096)
    (he : encUint 0x60 d.length ++ d = p ++ q) (hq : q ≠ []) : readStringKey p = .err .eof := by
  cases p with
  | nil => rfl
  | cons x p' =>
    rw [encUint_eq, List.cons_append, List.cons_append] at he
    injection he with hx he
    subst hx
    have hb : IsBase 0x60 := by simp [IsBase]
    have h2 := (head_and 0x60 hb _ (headInfo_lt d.length)).2.1
    have := lengthPrefixed_trunc 0x60 hb d p' q h he hq
    unfold readLengthPrefixedBytes at this
    simp only [readStringKey, h2]
    rw [if_neg (by simp)]
    exact this

mutual
theorem readValue_trunc : ∀ (v : Val), Supported v → ∀ (f : Nat) (p q : Bytes),
    enc v = p ++ q → q ≠ [] → 2 * p.length + 1 ≤ f → readValue f p = .err .eof
  | _, _, 0, _, _, _, _, h => by omega
  | _, _, _ + 1, [], _, _, _, _ => by rw [readValue]
  | .null, _, f + 1, x :: p, q, he, hq, _ => by
    have := length_lt_of_prefix he hq; simp [enc] at this
  | .bool b, _, f + 1, x :: p, q, he, hq, _ => by
    have := length_lt_of_prefix he hq; cases b <;> simp [enc] at this
  | .gint i, hs, _ + 1, _ :: _, _, _, _, _ => by cases hs
  | .int i, hs, f + 1, x :: p, q, he, hq, _ => by
    cases hs with
    | int _ h1 h2 =>
    simp only [enc] at he
    split at he
    · rename_i hneg
      have : encUint 0x20 (-1 - i).toNat = [0x20 + UInt8.ofNat (-1 - i).toNat] := by
        simp [encUint]; omega
      rw [this] at he
      have := length_lt_of_prefix he hq; simp at this
    · rw [encUint_eq, List.cons_append] at he
      injection he with hx he
      subst hx
      have := length_lt_of_prefix he hq
      rw [toBE_length] at this
      rw [readValue_uint_head _ _ (headInfo_lt _), getVarLenInt_short 0x00 (by simp [IsBase]) _ _ this]; rfl
  | .f64 y, _, f + 1, x :: p, q, he, hq, _ => by
    simp only [enc, List.cons_append] at he
    injection he with hx he
    subst hx
    have := length_lt_of_prefix he hq
    rw [toBE_length] at this
    have h8 := readBytes_short 8 p (by omega) this
    rw [readValue_f64_head, readFloatBytes]
    rw [show ((8:Int)) = ((8:Nat):Int) from rfl, h8]; rfl
  | .str s, hs, f + 1, x :: p, q, he, hq, _ => by
    cases hs with
    | str _ h1 =>
    simp only [enc] at he
    rw [encUint_eq, List.cons_append, List.cons_append] at he
    injection he with hx he
    subst hx
    rw [readValue_str_head _ _ (headInfo_lt _), lengthPrefixed_trunc _ (by simp [IsBase]) _ _ _ h1 he hq]; rfl
  | .bytes s, hs, f + 1, x :: p, q, he, hq, _ => by
    cases hs with
    | bytes _ h1 =>
    simp only [enc] at he
    rw [encUint_eq, List.cons_append, List.cons_append] at he
    injection he with hx he
    subst hx
    rw [readValue_bytes_head _ _ (headInfo_lt _), lengthPrefixed_trunc _ (by simp [IsBase]) _ _ _ h1 he hq]; rfl
  | .arr l, hs, f + 1, x :: p, q, he, hq, hf => by
    cases hs with
    | arr _ h1 h2 =>
    simp only [enc] at he
    rw [encUint_eq, List.cons_append, List.cons_append] at he
    injection he with hx he
    subst hx
    simp only [List.length_cons] at hf
    rw [readValue_arr_head _ _ (headInfo_lt _)]
    rcases split_prefix he with ⟨a', ha, he⟩ | ⟨b', hp, hd⟩
    · have := length_lt_of_prefix he ha
      rw [toBE_length] at this
      rw [getVarLenInt_short _ (by simp [IsBase]) _ p this]
    · have hl : p.length = tailLen l.length + b'.length := by rw [hp, List.length_append, toBE_length]
      rw [hp, getVarLenInt_enc _ (by simp [IsBase]) _ (by omega)]
      simp only
      have hc : maxCap = 2^44 := rfl
      rw [if_neg (by rw [hc]; omega), readArray_trunc l h2 f b' q hd hq (by omega)]; rfl
  | .obj m, hs, f + 1, x :: p, q, he, hq, hf => by
    cases hs with
    | obj _ h1 h2 h3 h4 =>
    simp only [enc] at he
    rw [encUint_eq, List.cons_append, List.cons_append] at he
    injection he with hx he
    subst hx
    simp only [List.length_cons] at hf
    rw [readValue_obj_head _ _ (headInfo_lt _)]
    rcases split_prefix he with ⟨a', ha, he⟩ | ⟨b', hp, hd⟩
    · have := length_lt_of_prefix he ha
      rw [toBE_length] at this
      rw [getVarLenInt_short _ (by simp [IsBase]) _ p this]
    · have hl : p.length = tailLen m.length + b'.length := by rw [hp, List.length_append, toBE_length]
      rw [hp, getVarLenInt_enc _ (by simp [IsBase]) _ (by omega)]
      simp only
      rw [readMap_trunc m h3 h4 f [] b' q hd hq (by omega)]; rfl
theorem readArray_trunc : ∀ (l : List Val), (∀ v ∈ l, Supported v) → ∀ (f : Nat) (p q : Bytes),
    encList l = p ++ q → q ≠ [] → 2 * p.length + 2 ≤ f → readArray f l.length p = .err .eof
  | _, _, 0, _, _, _, _, h => by omega
  | [], _, f + 1, p, q, he, hq, _ => by simp [encList] at he; exact absurd he.2 hq
  | v :: t, hs, f + 1, p, q, he, hq, hf => by
    have hv := hs v (by simp)
    have hp := enc_length_pos v
    simp only [encList] at he
    rw [readArray]
    have e1 : ¬ ((v :: t).length : Int) = 0 := by simp; omega
    have e2 : ¬ ((v :: t).length : Int) = -1 := by omega
    have e3 : (0:Int) < ((v :: t).length : Int) := by simp
    rw [if_neg e1, if_neg e2]
    rcases split_prefix he with ⟨a', ha, he⟩ | ⟨b', hp, hd⟩
    · rw [readValue_trunc v hv f p a' he ha (by omega)]
    · have hl : p.length = (enc v).length + b'.length := by rw [hp, List.length_append]
      rw [hp, readValue_enc v hv f _ (by omega)]
      simp only
      rw [if_pos e3]
      have e4 : ((v :: t).length : Int) - 1 = (t.length : Int) := by simp
      rw [e4, readArray_trunc t (fun x hx => hs x (by simp [hx])) f b' q hd hq (by omega)]
theorem readMap_trunc : ∀ (m : List (Bytes × Val)), (∀ kv ∈ m, kv.1.length ≤ 4096) →
    (∀ kv ∈ m, Supported kv.2) → ∀ (f : Nat) (acc : List (Bytes × Val)) (p q : Bytes),
    encFields m = p ++ q → q ≠ [] → 2 * p.length + 2 ≤ f →
    readMap f m.length acc p = .err .eof
  | _, _, _, 0, _, _, _, _, _, h => by omega
  | [], _, _, f + 1, acc, p, q, he, hq, _ => by simp [encFields] at he; exact absurd he.2 hq
  | (k, v) :: t, hk, hs, f + 1, acc, p, q, he, hq, hf => by
    have hv := hs (k, v) (by simp)
    have hkl := hk (k, v) (by simp)
    have hp := enc_length_pos v
    have hq' := encUint_length_pos 0x60 k.length
    simp only [encFields] at he
    rw [readMap]
    have e1 : ¬ (((k, v) :: t).length : Int) = 0 := by simp; omega
    have e2 : ¬ (((k, v) :: t).length : Int) = -1 := by omega
    have e3 : (0:Int) < (((k, v) :: t).length : Int) := by simp
    rw [if_neg e1, if_neg e2]
    rw [List.append_assoc] at he
    rcases split_prefix he with ⟨a', ha, he⟩ | ⟨b', hp, hd⟩
    · rw [readStringKey_trunc k p a' hkl he ha]
    · have hl : p.length = (encUint 0x60 k.length ++ k).length + b'.length := by rw [hp, List.length_append]
      rw [List.length_append] at hl
      rw [hp, List.append_assoc, readStringKey_enc k _ hkl]
      simp only
      rcases split_prefix hd with ⟨a', ha, he⟩ | ⟨b2, hp2, hd2⟩
      · rw [readValue_trunc v hv f b' a' he ha (by omega)]
      · have hl2 : b'.length = (enc v).length + b2.length := by rw [hp2, List.length_append]
        rw [hp2, readValue_enc v hv f _ (by omega)]
        simp only
        rw [if_pos e3]
        have e4 : (((k, v) :: t).length : Int) - 1 = (t.length : Int) := by simp
        rw [e4, readMap_trunc t (fun x hx => hk x (by simp [hx])) (fun x hx => hs x (by simp [hx])) f _ b2 q
          hd2 hq (by omega)]
end

/-! ### Totality and progress -/

theorem readBytes_suffix {n : Int} {s d r : Bytes} (h : readBytes n s = .ok d r) : r <:+ s :=
  ⟨d, (readBytes_ok h).symm⟩

theorem readBytes_ne_fuel (n : Int) (s : Bytes) : readBytes n s ≠ .err .fuel := by
  unfold readBytes; split
  · simp
  split
  · simp
  split <;> simp

theorem readIntBytes_suffix {n : Int} {s r : Bytes} {i : Int} (h : readIntBytes n s = .ok i r) : r <:+ s := by
  unfold readIntBytes at h; split at h
  · rename_i heq; simp at h; rw [← h.2]; exact readBytes_suffix heq
  · simp at h

theorem readIntBytes_ne_fuel (n : Int) (s : Bytes) : readIntBytes n s ≠ .err .fuel := by
  unfold readIntBytes
  have := readBytes_ne_fuel n s
  split
  · simp
  · rename_i heq; rw [heq] at this; simpa using this

theorem readFloatBytes_suffix {n : Int} {s r : Bytes} {i : UInt64} (h : readFloatBytes n s = .ok i r) : r <:+ s := by
  unfold readFloatBytes at h; split at h
  · rename_i heq; simp at h; rw [← h.2]; exact readBytes_suffix heq
  · simp at h

theorem readFloatBytes_ne_fuel (n : Int) (s : Bytes) : readFloatBytes n s ≠ .err .fuel := by
  unfold readFloatBytes
  have := readBytes_ne_fuel n s
  split
  · simp
  · rename_i heq; rw [heq] at this; simpa using this

theorem getVarLenInt_suffix {b : UInt8} {s r : Bytes} {i : Int} (h : getVarLenInt b s = .ok i r) : r <:+ s := by
  unfold getVarLenInt at h
  simp only at h
  split at h
  · simp at h; rw [← h.2]; exact List.suffix_refl _
  split at h; · exact readIntBytes_suffix h
  split at h; · exact readIntBytes_suffix h
  split at h; · exact readIntBytes_suffix h
  split at h; · exact readIntBytes_suffix h
  simp at h

theorem getVarLenInt_ne_fuel (b : UInt8) (s : Bytes) : getVarLenInt b s ≠ .err .fuel := by
  unfold getVarLenInt
  simp only
  split; · simp
  split; · exact readIntBytes_ne_fuel _ _
  split; · exact readIntBytes_ne_fuel _ _
  split; · exact readIntBytes_ne_fuel _ _
  split; · exact readIntBytes_ne_fuel _ _
  simp

theorem lengthPrefixed_suffix {b : UInt8} {s d r : Bytes} (h : readLengthPrefixedBytes b s = .ok d r) : r <:+ s := by
  unfold readLengthPrefixedBytes at h
  split at h
  · rename_i heq; exact (readBytes_suffix h).trans (getVarLenInt_suffix heq)
  · simp at h

theorem lengthPrefixed_ne_fuel (b : UInt8) (s : Bytes) : readLengthPrefixedBytes b s ≠ .err .fuel := by
  unfold readLengthPrefixedBytes
  have := getVarLenInt_ne_fuel b s
  split
  · exact readBytes_ne_fuel _ _
  · rename_i heq; rw [heq] at this; simpa using this

theorem readStringKey_suffix {s d r : Bytes} (h : readStringKey s = .ok d r) : r <:+ s ∧ r.length < s.length := by
  unfold readStringKey at h
  split at h; · simp at h
  split at h; · simp at h
  split at h
  · rename_i heq
    have := (readBytes_suffix h).trans (getVarLenInt_suffix heq)
    exact ⟨this.trans (List.suffix_cons _ _), by have := this.length_le; simp; omega⟩
  · simp at h

theorem readStringKey_ne_fuel (s : Bytes) : readStringKey s ≠ .err .fuel := by
  unfold readStringKey
  split; · simp
  split; · simp
  rename_i b s _
  have := getVarLenInt_ne_fuel b s
  split
  · exact readBytes_ne_fuel _ _
  · rename_i heq; rw [heq] at this; simpa using this

theorem readBreak_suffix {s r : Bytes} (h : readBreak s = some r) : r <:+ s := by
  unfold readBreak at h
  split at h
  · split at h
    · simp at h; rw [← h]; exact List.suffix_cons _ _
    · simp at h
  · simp at h

theorem readChunks_suffix : ∀ {f : Nat} {s d r : Bytes}, readChunks f s = .ok d r → r <:+ s
  | 0, _, _, _, h => by simp [readChunks] at h
  | f + 1, [], d, r, h => by simp [readChunks] at h
  | f + 1, b :: s, d, r, h => by
    rw [readChunks] at h
    split at h
    · rename_i heq; simp at h; rw [← h.2]; exact readBreak_suffix heq
    · split at h; · simp at h
      rename_i heq
      split at h; · simp at h
      rename_i heq2
      simp at h; rw [← h.2]
      exact ((readChunks_suffix heq2).trans (lengthPrefixed_suffix heq)).trans (List.suffix_cons _ _)

/-- With more recursion depth than input bytes the chunk loop never runs out of depth. -/
theorem readChunks_total : ∀ (f : Nat) (s : Bytes), s.length < f →
    readChunks f s ≠ .err .fuel ∧ ∀ f', s.length < f' → readChunks f' s = readChunks f s
  | 0, _, h => by omega
  | f + 1, [], h => by
    refine ⟨by simp [readChunks], ?_⟩
    intro f' hf'
    cases f' with
    | zero => omega
    | succ f' => rw [readChunks, readChunks]
  | f + 1, b :: s', h => by
    constructor
    · rw [readChunks]
      split; · simp
      have h1 := lengthPrefixed_ne_fuel b s'
      split
      · rename_i heq; rw [heq] at h1; simpa using h1
      · rename_i heq
        have hl := (lengthPrefixed_suffix heq).length_le
        split
        · rename_i heq2
          have := (readChunks_total f _ (by simp only [List.length_cons] at h; exact Nat.lt_of_le_of_lt hl (by omega))).1
          rw [heq2] at this; simpa using this
        · simp
    · intro f' hf'
      cases f' with
      | zero => omega
      | succ f' =>
        rw [readChunks, readChunks]
        split; · rfl
        split; · rfl
        rename_i heq
        have hl := (lengthPrefixed_suffix heq).length_le
        simp at h hf'
        rw [(readChunks_total f _ (by omega)).2 f' (by omega)]

/-- A read result that consumed at least one byte, and leaves a suffix of the input. -/
def Progress {α : Type} (s : Bytes) (res : Res α) : Prop :=
  ∀ a r, res = .ok a r → r <:+ s ∧ r.length < s.length

/-- A read result that leaves a suffix of the input. -/
def Weak {α : Type} (s : Bytes) (res : Res α) : Prop :=
  ∀ a r, res = .ok a r → r <:+ s

theorem progress_map {α β : Type} {b : UInt8} {s : Bytes} {x : Res α} {g : α → β}
    (h : ∀ a r, x = .ok a r → r <:+ s) :
    Progress (b :: s) (x.map g) := by
  intro a r h'
  cases x with
  | ok a0 r0 =>
    simp [Res.map] at h'
    have := h a0 r0 rfl
    rw [h'.2] at this
    exact ⟨this.trans (List.suffix_cons _ _), by have := this.length_le; simp; omega⟩
  | err e => simp [Res.map] at h'

theorem progress_here {α : Type} (b : UInt8) (s : Bytes) (a : α) : Progress (b :: s) (.ok a s) := by
  intro a r h; simp at h; rw [← h.2]; exact ⟨List.suffix_cons _ _, by simp⟩

theorem progress_err {α : Type} (s : Bytes) (e : Err) : Progress s (.err e : Res α) := by
  intro a r h; simp at h

theorem progress_ite {α : Type} {s : Bytes} {c : Prop} [Decidable c] {x y : Res α}
    (h1 : c → Progress s x) (h2 : ¬c → Progress s y) : Progress s (if c then x else y) := by
  split
  · exact h1 ‹_›
  · exact h2 ‹_›

theorem progress_all : ∀ f : Nat,
    (∀ s, Progress s (readValue f s)) ∧ (∀ n s, Weak s (readArray f n s)) ∧
    (∀ n acc s, Weak s (readMap f n acc s))
  | 0 => by
    refine ⟨fun s => ?_, fun n s => ?_, fun n acc s => ?_⟩
    · rw [readValue]; exact progress_err _ _
    · rw [readArray]; intro a r h; simp at h
    · rw [readMap]; intro a r h; simp at h
  | f + 1 => by
    obtain ⟨hV, hA, hM⟩ := progress_all f
    refine ⟨fun s => ?_, fun n s => ?_, fun n acc s => ?_⟩
    · cases s with
      | nil => rw [readValue]; exact progress_err _ _
      | cons b s =>
        rw [readValue]
        refine progress_ite (fun _ => progress_map (fun _ _ => getVarLenInt_suffix)) fun _ => ?_
        refine progress_ite (fun _ => progress_here _ _ _) fun _ => ?_
        refine progress_ite (fun _ => progress_here _ _ _) fun _ => ?_
        refine progress_ite (fun _ => progress_here _ _ _) fun _ => ?_
        refine progress_ite (fun _ => progress_here _ _ _) fun _ => ?_
        refine progress_ite (fun _ => progress_map (fun _ _ => readFloatBytes_suffix)) fun _ => ?_
        refine progress_ite (fun _ => progress_map (fun _ _ => readFloatBytes_suffix)) fun _ => ?_
        refine progress_ite (fun _ => progress_map (fun _ _ => readFloatBytes_suffix)) fun _ => ?_
        refine progress_ite (fun _ => progress_map (fun _ _ => readChunks_suffix)) fun _ => ?_
        refine progress_ite (fun _ => progress_map (fun _ _ => readChunks_suffix)) fun _ => ?_
        refine progress_ite (fun _ => progress_map (hA (-1) s)) fun _ => ?_
        refine progress_ite (fun _ => progress_map (hM (-1) [] s)) fun _ => ?_
        refine progress_ite (fun _ => progress_map (fun _ _ => lengthPrefixed_suffix)) fun _ => ?_
        refine progress_ite (fun _ => progress_map (fun _ _ => lengthPrefixed_suffix)) fun _ => ?_
        refine progress_ite (fun _ => ?_) fun _ => ?_
        · split
          · exact progress_err _ _
          · rename_i len r heq
            split; · exact progress_err _ _
            exact progress_map (fun a r' h => (hA len r a r' h).trans (getVarLenInt_suffix heq))
        refine progress_ite (fun _ => ?_) fun _ => ?_
        · split
          · exact progress_err _ _
          · rename_i len r heq
            exact progress_map (fun a r' h => (hM len [] r a r' h).trans (getVarLenInt_suffix heq))
        refine progress_ite (fun _ => progress_here _ _ _) fun _ => ?_
        refine progress_ite (fun _ => progress_here _ _ _) fun _ => ?_
        exact progress_err _ _
    · intro a r h
      rw [readArray] at h
      split at h
      · simp at h; rw [← h.2]; exact List.suffix_refl _
      · split at h
        · rename_i heq
          simp at h; rw [← h.2]
          split at heq
          · exact readBreak_suffix heq
          · simp at heq
        · split at h; · simp at h
          rename_i heq
          split at h; · simp at h
          rename_i heq2
          simp at h; rw [← h.2]
          exact (hA _ _ _ _ heq2).trans (hV s _ _ heq).1
    · intro a r h
      rw [readMap] at h
      split at h
      · simp at h; rw [← h.2]; exact List.suffix_refl _
      · split at h
        · rename_i heq
          simp at h; rw [← h.2]
          split at heq
          · exact readBreak_suffix heq
          · simp at heq
        · split at h; · simp at h
          rename_i hk
          split at h; · simp at h
          rename_i heq
          exact ((hM _ _ _ _ _ h).trans (hV _ _ _ heq).1).trans (readStringKey_suffix hk).1

theorem readValue_progress {f : Nat} {s r : Bytes} {v : Val} (h : readValue f s = .ok v r) :
    r <:+ s ∧ r.length < s.length := (progress_all f).1 s v r h

/-- result does not signal exhausted depth and agrees for all larger depths -/
theorem total_map {α β : Type} {x y : Res α} {g : α → β} (h : x ≠ .err .fuel) (hxy : y = x) :
    x.map g ≠ .err .fuel ∧ y.map g = x.map g := by
  subst hxy
  refine ⟨?_, rfl⟩
  cases y with
  | ok a r => simp [Res.map]
  | err e => simpa [Res.map] using h

theorem total_ite {α : Type} {c : Prop} [Decidable c] {x y x' y' : Res α}
    (h1 : c → x ≠ .err .fuel ∧ x' = x) (h2 : ¬c → y ≠ .err .fuel ∧ y' = y) :
    (if c then x else y) ≠ .err .fuel ∧ (if c then x' else y') = (if c then x else y) := by
  by_cases h : c
  · simp only [if_pos h]; exact h1 h
  · simp only [if_neg h]; exact h2 h

theorem total_all : ∀ f : Nat,
    (∀ s : Bytes, 2 * s.length + 1 ≤ f → readValue f s ≠ .err .fuel ∧
      ∀ f', 2 * s.length + 1 ≤ f' → readValue f' s = readValue f s) ∧
    (∀ n (s : Bytes), 2 * s.length + 2 ≤ f → readArray f n s ≠ .err .fuel ∧
      ∀ f', 2 * s.length + 2 ≤ f' → readArray f' n s = readArray f n s) ∧
    (∀ n acc (s : Bytes), 2 * s.length + 2 ≤ f → readMap f n acc s ≠ .err .fuel ∧
      ∀ f', 2 * s.length + 2 ≤ f' → readMap f' n acc s = readMap f n acc s)
  | 0 => by
    refine ⟨fun s h => by omega, fun n s h => by omega, fun n acc s h => by omega⟩
  | f + 1 => by
    obtain ⟨hV, hA, hM⟩ := total_all f
    refine ⟨fun s hs => ?_, fun n s hs => ?_, fun n acc s hs => ?_⟩
    · cases s with
      | nil =>
        refine ⟨by rw [readValue]; simp, ?_⟩
        intro f' hf'
        cases f' with
        | zero => omega
        | succ f' => rw [readValue, readValue]
      | cons b s =>
        simp only [List.length_cons] at hs
        suffices h : ∀ f', 2 * s.length + 2 ≤ f' → readValue (f+1) (b :: s) ≠ .err .fuel ∧
            readValue (f'+1) (b :: s) = readValue (f+1) (b :: s) by
          refine ⟨(h f (by omega)).1, ?_⟩
          intro f' hf'
          cases f' with
          | zero => simp at hf'
          | succ f' => exact (h f' (by simp at hf'; omega)).2
        intro f' hf'
        rw [readValue, readValue]
        refine total_ite (fun _ => total_map (getVarLenInt_ne_fuel _ _) rfl) fun _ => ?_
        refine total_ite (fun _ => ⟨by simp, rfl⟩) fun _ => ?_
        refine total_ite (fun _ => ⟨by simp, rfl⟩) fun _ => ?_
        refine total_ite (fun _ => ⟨by simp, rfl⟩) fun _ => ?_
        refine total_ite (fun _ => ⟨by simp, rfl⟩) fun _ => ?_
        refine total_ite (fun _ => total_map (readFloatBytes_ne_fuel _ _) rfl) fun _ => ?_
        refine total_ite (fun _ => total_map (readFloatBytes_ne_fuel _ _) rfl) fun _ => ?_
        refine total_ite (fun _ => total_map (readFloatBytes_ne_fuel _ _) rfl) fun _ => ?_
        have hc := readChunks_total f s (by omega)
        refine total_ite (fun _ => total_map hc.1 (hc.2 f' (by omega))) fun _ => ?_
        refine total_ite (fun _ => total_map hc.1 (hc.2 f' (by omega))) fun _ => ?_
        refine total_ite (fun _ => total_map (hA _ s (by omega)).1 ((hA _ s (by omega)).2 f' (by omega))) fun _ => ?_
        refine total_ite (fun _ => total_map (hM _ _ s (by omega)).1 ((hM _ _ s (by omega)).2 f' (by omega))) fun _ => ?_
        refine total_ite (fun _ => total_map (lengthPrefixed_ne_fuel _ _) rfl) fun _ => ?_
        refine total_ite (fun _ => total_map (lengthPrefixed_ne_fuel _ _) rfl) fun _ => ?_
        have hg := getVarLenInt_ne_fuel b s
        refine total_ite (fun _ => ?_) fun _ => ?_
        · split
          · rename_i heq; rw [heq] at hg; exact ⟨by simpa using hg, rfl⟩
          · rename_i len r heq
            have hl := (getVarLenInt_suffix heq).length_le
            refine total_ite (fun _ => ⟨by simp, rfl⟩) fun _ => ?_
            exact total_map (hA _ r (by omega)).1 ((hA _ r (by omega)).2 f' (by omega))
        refine total_ite (fun _ => ?_) fun _ => ?_
        · split
          · rename_i heq; rw [heq] at hg; exact ⟨by simpa using hg, rfl⟩
          · rename_i len r heq
            have hl := (getVarLenInt_suffix heq).length_le
            exact total_map (hM _ _ r (by omega)).1 ((hM _ _ r (by omega)).2 f' (by omega))
        refine total_ite (fun _ => ⟨by simp, rfl⟩) fun _ => ?_
        refine total_ite (fun _ => ⟨by simp, rfl⟩) fun _ => ?_
        exact ⟨by simp, rfl⟩
    · have hv := hV s (by omega)
      suffices h : ∀ f', 2 * s.length + 1 ≤ f' → readArray (f+1) n s ≠ .err .fuel ∧
            readArray (f'+1) n s = readArray (f+1) n s by
        refine ⟨(h f (by omega)).1, ?_⟩
        intro f' hf'
        cases f' with
        | zero => omega
        | succ f' => exact (h f' (by omega)).2
      intro f' hf'
      rw [readArray, readArray, hv.2 f' (by omega)]
      split; · exact ⟨by simp, rfl⟩
      split; · exact ⟨by simp, rfl⟩
      split
      · rename_i heq; rw [heq] at hv; exact ⟨by simpa using hv.1, rfl⟩
      · rename_i v r heq
        have hl := (readValue_progress heq).2
        have ha := hA (if 0 < n then n - 1 else n) r (by omega)
        rw [ha.2 f' (by omega)]
        refine ⟨?_, rfl⟩
        split
        · rename_i heq2; rw [heq2] at ha; simpa using ha.1
        · simp
    · suffices h : ∀ f', 2 * s.length + 1 ≤ f' → readMap (f+1) n acc s ≠ .err .fuel ∧
            readMap (f'+1) n acc s = readMap (f+1) n acc s by
        refine ⟨(h f (by omega)).1, ?_⟩
        intro f' hf'
        cases f' with
        | zero => omega
        | succ f' => exact (h f' (by omega)).2
      intro f' hf'
      rw [readMap, readMap]
      split; · exact ⟨by simp, rfl⟩
      split; · exact ⟨by simp, rfl⟩
      have hk := readStringKey_ne_fuel s
      split
      · rename_i heq; rw [heq] at hk; exact ⟨by simpa using hk, rfl⟩
      · rename_i k r heq
        have hl := (readStringKey_suffix heq).2
        have hv := hV r (by omega)
        rw [hv.2 f' (by omega)]
        split
        · rename_i heq; rw [heq] at hv; exact ⟨by simpa using hv.1, rfl⟩
        · rename_i v r' heq
          have hl := (readValue_progress heq).2
          have ha := hM (if 0 < n then n - 1 else n) (mapSet acc k v) r' (by omega)
          rw [ha.2 f' (by omega)]
          exact ⟨ha.1, rfl⟩


/-! ### The entry loop -/

/-- Array entries numbered from `n`. -/
def indexed (n : Nat) : List Val → List Entry
  | [] => []
  | v :: t => { index := n, value := v } :: indexed (n + 1) t

/-- Object entries for the bindings of a map. -/
def keyed (m : List (Bytes × Val)) : List Entry := m.map fun kv => { key := kv.1, value := kv.2 }

/-- `readLoop` whose first entry does not read a header. -/
def bodyLoop (tl : TopLevel) : Nat → Reader → List Entry × Err
  | 0, _ => ([], .fuel)
  | f + 1, r =>
    match readBody tl r with
    | .error e => ([], e)
    | .ok (ent, r') => (ent :: (bodyLoop tl f r').1, (bodyLoop tl f r').2)

theorem readBody_rows {tl : TopLevel} {r r' : Reader} {e : Entry} (h : readBody tl r = .ok (e, r')) :
    r'.rowsRead = r.rowsRead + 1 ∧ r'.length = r.length ∧ r'.inp.length < r.inp.length := by
  unfold readBody at h
  split at h
  · simp at h
  · cases tl with
    | object =>
      simp only at h
      split at h; · simp at h
      rename_i hk
      split at h; · simp at h
      rename_i hv
      have h1 := (readStringKey_suffix hk).2
      have h2 := (readValue_progress hv).2
      simp at h; rw [← h.2]; simp; omega
    | array =>
      simp only at h
      split at h; · simp at h
      rename_i hv
      have h2 := (readValue_progress hv).2
      simp at h; rw [← h.2]; simp; omega

theorem readLoop_started (tl : TopLevel) : ∀ (f : Nat) (r : Reader), r.rowsRead ≠ 0 →
    readLoop tl f r = bodyLoop tl f r
  | 0, _, _ => rfl
  | f + 1, r, h => by
    rw [readLoop, bodyLoop, readEntry]
    simp only [start, if_neg h]
    cases hb : readBody tl r with
    | error e => rfl
    | ok x =>
      obtain ⟨e, r'⟩ := x
      have := readBody_rows hb
      simp only [readLoop_started tl f r' (by omega)]

theorem readLoop_fresh (tl : TopLevel) (f : Nat) (r : Reader) (h : r.rowsRead = 0) :
    readLoop tl (f + 1) r = match start tl r with
      | .error e => ([], e)
      | .ok r' => bodyLoop tl (f + 1) r' := by
  rw [readLoop, readEntry]
  cases hs : start tl r with
  | error e => rfl
  | ok r' =>
    simp only
    rw [bodyLoop]
    cases hb : readBody tl r' with
    | error e => rfl
    | ok x =>
      obtain ⟨e, r2⟩ := x
      have := readBody_rows hb
      simp only [readLoop_started tl f r2 (by omega)]

theorem bodyLoop_array : ∀ (vs : List Val), (∀ v ∈ vs, Supported v) → ∀ (p q : Bytes),
    encList vs = p ++ q → ∀ (f n : Nat) (len : Int), p.length < f → len ≠ -1 →
    ∃ es, bodyLoop .array f { rowsRead := n, length := len, inp := p } = (es, .eof) ∧
      es <+: indexed n vs ∧ (q = [] → es = indexed n vs)
  | _, _, _, _, _, 0, _, _, h, _ => by omega
  | [], _, p, q, he, f + 1, n, len, _, hlen => by
    have hp : p = [] := by simp [encList] at he; exact he.1
    subst hp
    refine ⟨[], ?_, by simp [indexed], by simp [indexed]⟩
    simp [bodyLoop, readBody, hlen, readValue, fuelFor]
  | v :: t, hs, p, q, he, f + 1, n, len, hf, hlen => by
    have hv := hs v (by simp)
    have hpos := enc_length_pos v
    have hlen0 : q = [] → (encList (v :: t)).length = p.length := by
      intro hq; rw [he, hq]; simp
    simp only [encList, List.length_append] at hlen0
    simp only [encList] at he
    rcases split_prefix he with ⟨a', ha, he⟩ | ⟨b', hp, hd⟩
    · refine ⟨[], ?_, by simp, ?_⟩
      · rw [bodyLoop, readBody]
        simp only [if_neg hlen]
        rw [readValue_trunc v hv (fuelFor p) p a' he ha (by simp [fuelFor])]
      · intro hq
        have e2 := length_lt_of_prefix he ha
        have := hlen0 hq
        omega
    · have hl : p.length = (enc v).length + b'.length := by rw [hp, List.length_append]
      obtain ⟨es, h1, h2, h3⟩ := bodyLoop_array t (fun x hx => hs x (by simp [hx])) b' q hd f (n+1) len
        (by omega) hlen
      refine ⟨{ index := n, value := v } :: es, ?_, ?_, ?_⟩
      · rw [bodyLoop, readBody]
        simp only [if_neg hlen]
        rw [hp, readValue_enc v hv _ _ (by simp [fuelFor]; omega)]
        simp [h1]
      · simpa [indexed] using h2
      · intro hq; rw [h3 hq]; rfl

theorem bodyLoop_object : ∀ (m : List (Bytes × Val)), (∀ kv ∈ m, kv.1.length ≤ 4096) →
    (∀ kv ∈ m, Supported kv.2) → ∀ (p q : Bytes),
    encFields m = p ++ q → ∀ (f n : Nat) (len : Int), p.length < f → len ≠ -1 →
    ∃ es, bodyLoop .object f { rowsRead := n, length := len, inp := p } = (es, .eof) ∧
      es <+: keyed m ∧ (q = [] → es = keyed m)
  | _, _, _, _, _, _, 0, _, _, h, _ => by omega
  | [], _, _, p, q, he, f + 1, n, len, _, hlen => by
    have hp : p = [] := by simp [encFields] at he; exact he.1
    subst hp
    refine ⟨[], ?_, by simp [keyed], by simp [keyed]⟩
    simp [bodyLoop, readBody, hlen, readStringKey]
  | (k, v) :: t, hk, hs, p, q, he, f + 1, n, len, hf, hlen => by
    have hv := hs (k, v) (by simp)
    have hkl := hk (k, v) (by simp)
    have hpos := enc_length_pos v
    have hlen0 : q = [] → (encFields ((k, v) :: t)).length = p.length := by
      intro hq; rw [he, hq]; simp
    simp only [encFields, List.length_append] at hlen0
    simp only [encFields] at he
    rw [List.append_assoc] at he
    rcases split_prefix he with ⟨a', ha, he⟩ | ⟨b', hp, hd⟩
    · refine ⟨[], ?_, by simp, ?_⟩
      · rw [bodyLoop, readBody]
        simp only [if_neg hlen]
        rw [readStringKey_trunc k p a' hkl he ha]
      · intro hq
        have e2 := length_lt_of_prefix he ha
        have := hlen0 hq
        simp at e2; omega
    · have hl : p.length = (encUint 0x60 k.length ++ k).length + b'.length := by rw [hp, List.length_append]
      rw [List.length_append] at hl
      rcases split_prefix hd with ⟨a', ha, he⟩ | ⟨b2, hp2, hd2⟩
      · refine ⟨[], ?_, by simp, ?_⟩
        · rw [bodyLoop, readBody]
          simp only [if_neg hlen]
          rw [hp, List.append_assoc, readStringKey_enc k _ hkl]
          simp only
          rw [readValue_trunc v hv (fuelFor b') b' a' he ha (by simp [fuelFor])]
        · intro hq
          have e2 := length_lt_of_prefix he ha
          have := hlen0 hq
          omega
      · have hl2 : b'.length = (enc v).length + b2.length := by rw [hp2, List.length_append]
        obtain ⟨es, h1, h2, h3⟩ := bodyLoop_object t (fun x hx => hk x (by simp [hx]))
          (fun x hx => hs x (by simp [hx])) b2 q hd2 f (n+1) len (by omega) hlen
        refine ⟨{ key := k, value := v } :: es, ?_, ?_, ?_⟩
        · rw [bodyLoop, readBody]
          simp only [if_neg hlen]
          rw [hp, List.append_assoc, readStringKey_enc k _ hkl]
          simp only
          rw [hp2, readValue_enc v hv _ _ (by simp [fuelFor]; omega)]
          simp [h1]
        · simpa [keyed] using h2
        · intro hq; rw [h3 hq]; rfl

theorem headInfo_ne (n : Nat) : ¬ UInt8.ofNat (headInfo n) = 0x1f := by
  have := headInfo_lt n
  intro e
  have := congrArg UInt8.toNat e
  simp at this
  omega

theorem topLevel_enc (base : UInt8) (hb : base = 0x80 ∨ base = 0xa0) (n : Nat) (h : n < 2^63) (r : Bytes) :
    readTopLevel (encUint base n ++ r) = .ok (base, n) r := by
  rw [encUint_eq, List.cons_append]
  have hB : IsBase base := by rcases hb with rfl | rfl <;> simp [IsBase]
  obtain ⟨h1, h2, _⟩ := head_and base hB _ (headInfo_lt n)
  unfold readTopLevel
  simp only [h1, h2]
  rw [if_neg (by rcases hb with rfl | rfl <;> simp), if_neg (headInfo_ne n), getVarLenInt_enc base hB n h r]

theorem topLevel_trunc (base : UInt8) (hb : base = 0x80 ∨ base = 0xa0) (n : Nat) (p q : Bytes)
    (he : encUint base n = p ++ q) (hq : q ≠ []) : readTopLevel p = .err .eof := by
  rw [encUint_eq] at he
  have hB : IsBase base := by rcases hb with rfl | rfl <;> simp [IsBase]
  obtain ⟨h1, h2, _⟩ := head_and base hB _ (headInfo_lt n)
  cases p with
  | nil => rfl
  | cons x p =>
    rw [List.cons_append] at he
    injection he with hx he
    subst hx
    unfold readTopLevel
    simp only [h1, h2]
    rw [if_neg (by rcases hb with rfl | rfl <;> simp), if_neg (headInfo_ne n),
      getVarLenInt_short base hB n p (by have := length_lt_of_prefix he hq; rwa [toBE_length] at this)]

theorem readAll_array (vs : List Val) (hs : ∀ v ∈ vs, Supported v) (hl : vs.length < 2^63) (p q : Bytes)
    (he : enc (.arr vs) = p ++ q) :
    ∃ es, readAll .array p = (es, .eof) ∧ es <+: indexed 0 vs ∧ (q = [] → es = indexed 0 vs) := by
  have h0 := he
  rw [readAll, readLoop_fresh _ _ _ rfl]
  simp only [enc] at he
  have hpos := encUint_length_pos 0x80 vs.length
  rcases split_prefix he with ⟨a', ha, he⟩ | ⟨b', hp, hd⟩
  · refine ⟨[], ?_, by simp, ?_⟩
    · simp [start, topLevel_trunc 0x80 (by simp) _ p a' he ha]
    · intro hq
      have e2 := length_lt_of_prefix he ha
      have e1 : (enc (.arr vs)).length = p.length := by rw [h0, hq]; simp
      simp [enc] at e1; omega
  · have hl2 : p.length = (encUint 0x80 vs.length).length + b'.length := by rw [hp, List.length_append]
    have := bodyLoop_array vs hs b' q hd (p.length + 1) 0 (vs.length) (by omega) (by omega)
    have hst : start .array { inp := p } = .ok { length := vs.length, inp := b' } := by
      simp [start, hp, topLevel_enc 0x80 (by simp) _ hl, topByte]
    rw [hst]
    exact this

theorem readAll_object (m : List (Bytes × Val)) (hk : ∀ kv ∈ m, kv.1.length ≤ 4096)
    (hs : ∀ kv ∈ m, Supported kv.2) (hl : m.length < 2^63) (p q : Bytes)
    (he : enc (.obj m) = p ++ q) :
    ∃ es, readAll .object p = (es, .eof) ∧ es <+: keyed m ∧ (q = [] → es = keyed m) := by
  have h0 := he
  rw [readAll, readLoop_fresh _ _ _ rfl]
  simp only [enc] at he
  have hpos := encUint_length_pos 0xa0 m.length
  rcases split_prefix he with ⟨a', ha, he⟩ | ⟨b', hp, hd⟩
  · refine ⟨[], ?_, by simp, ?_⟩
    · simp [start, topLevel_trunc 0xa0 (by simp) _ p a' he ha]
    · intro hq
      have e2 := length_lt_of_prefix he ha
      have e1 : (enc (.obj m)).length = p.length := by rw [h0, hq]; simp
      simp [enc] at e1; omega
  · have hl2 : p.length = (encUint 0xa0 m.length).length + b'.length := by rw [hp, List.length_append]
    have := bodyLoop_object m hk hs b' q hd (p.length + 1) 0 (m.length) (by omega) (by omega)
    have hst : start .object { inp := p } = .ok { length := m.length, inp := b' } := by
      simp [start, hp, topLevel_enc 0xa0 (by simp) _ hl, topByte]
    rw [hst]
    exact this

/-- what the writer has collected after array writes -/
theorem foldl_writeArray (es : List Entry) (w : Writer) :
    (es.foldl (fun w e => (writeEntry .array w e).1) w).arr = w.arr ++ es.map (·.value) := by
  induction es generalizing w with
  | nil => simp
  | cons e t ih => rw [List.foldl_cons, ih]; simp [writeEntry]

theorem mapGet_none_of_not_mem {α : Type} {m : List (Bytes × α)} {k : Bytes} (h : ∀ x ∈ m, x.1 ≠ k) :
    mapGet m k = none := by
  induction m with
  | nil => rfl
  | cons x t ih =>
    obtain ⟨k', v'⟩ := x
    have h1 := h (k', v') (by simp)
    simp only [mapGet]
    rw [if_neg (fun e => h1 e.symm)]
    exact ih (fun x hx => h x (by simp [hx]))

theorem mapSet_perm {α : Type} {m : List (Bytes × α)} {k : Bytes} {v : α} (h : ∀ x ∈ m, x.1 ≠ k) :
    (mapSet m k v).Perm ((k, v) :: m) := by
  induction m with
  | nil => exact List.Perm.refl _
  | cons x t ih =>
    obtain ⟨k', v'⟩ := x
    have h1 := h (k', v') (by simp)
    simp only [mapSet]
    rw [if_neg (fun e => h1 e.symm)]
    split
    · exact List.Perm.refl _
    · exact (List.Perm.cons _ (ih (fun x hx => h x (by simp [hx])))).trans (List.Perm.swap _ _ _)

theorem foldl_writeObject (es : List Entry) (w : Writer)
    (hne : ∀ e ∈ es, e.key ≠ []) (hnd : (w.obj.map (·.1) ++ es.map (·.key)).Nodup) (hs : KeysSorted w.obj) :
    let w' := es.foldl (fun w e => (writeEntry .object w e).1) w
    KeysSorted w'.obj ∧ w'.obj.Perm (w.obj ++ es.map fun e => (e.key, e.value)) := by
  induction es generalizing w with
  | nil => simp [hs]
  | cons e t ih =>
    have hk := hne e (by simp)
    have hnot : ∀ x ∈ w.obj, x.1 ≠ e.key := by
      intro x hx he
      rw [List.nodup_append] at hnd
      exact hnd.2.2 x.1 (List.mem_map_of_mem hx) e.key (by simp) he
    have hstep : (writeEntry .object w e).1.obj = mapSet w.obj e.key e.value := by
      simp [writeEntry, hk, mapGet_none_of_not_mem hnot]
    have hp := mapSet_perm (v := e.value) hnot
    have := ih (writeEntry .object w e).1 (fun x hx => hne x (by simp [hx])) (by
        rw [hstep]
        have hpp : ((mapSet w.obj e.key e.value).map (·.1) ++ t.map (·.key)).Perm
            (w.obj.map (·.1) ++ (e :: t).map (·.key)) := by
          refine ((hp.map _).append_right _).trans ?_
          simp only [List.map_cons, List.cons_append]
          exact List.perm_middle.symm
        exact hpp.nodup_iff.mpr hnd) (by rw [hstep]; exact keysSorted_mapSet _ _ hs)
    simp only [List.foldl_cons]
    refine ⟨this.1, this.2.trans ?_⟩
    rw [hstep]
    refine (hp.append_right _).trans ?_
    simp only [List.map_cons, List.cons_append]
    exact List.perm_middle.symm

end Verif.Cbor
