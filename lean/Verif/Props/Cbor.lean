import Verif.Lemmas.Cbor
/-
Properties C20, C21, C22: the CBOR body reader and writer.
-/
namespace Verif.Cbor

/-! ## C20 – round trip -/

/-- C20 (arrays): writing entries with `Supported` values (integers from -24 up, strings and byte
strings up to 4096 bytes, …) and reading them back returns the same values, numbered in order, then
end-of-file.  `C20_negative_int_rejected` and `C20_long_string_rejected` show that the restrictions are
necessary. -/
theorem C20_array_roundtrip (es : List Entry) (hs : ∀ e ∈ es, Supported e.value)
    (hl : es.length < 2^63) :
    readAll .array (writeAll .array es) = (indexed 0 (es.map (·.value)), .eof) := by
  have hw : writeAll .array es = enc (.arr (es.map (·.value))) := by
    simp [writeAll, close, foldl_writeArray]
  obtain ⟨r, h1, _, h3⟩ := readAll_array (es.map (·.value))
    (by intro v hv; simp at hv; obtain ⟨e, he, rfl⟩ := hv; exact hs e he)
    (by simpa using hl) (writeAll .array es) [] (by simp [hw])
  rw [h1, h3 rfl]

example : readAll .array (writeAll .array
    [{ value := .arr [.int 300, .null] }, { value := .obj [(b!"a", .bool true), (b!"b", .int (-24))] },
     { value := .f64 4611686018427387904 }])
  = ([{ index := 0, value := .arr [.int 300, .null] },
      { index := 1, value := .obj [(b!"a", .bool true), (b!"b", .int (-24))] },
      { index := 2, value := .f64 4611686018427387904 }], .eof) := by decide +kernel

/-- C20 (objects): entries with distinct non-empty keys come back, in key order. -/
theorem C20_object_roundtrip (es : List Entry) (hs : ∀ e ∈ es, Supported e.value)
    (hk : ∀ e ∈ es, e.key ≠ [] ∧ e.key.length ≤ 4096) (hnd : (es.map (·.key)).Nodup)
    (hl : es.length < 2^63) :
    ∃ out : List Entry, readAll .object (writeAll .object es) = (out, .eof) ∧
      out.Pairwise (fun a b => bytesLt a.key b.key = true) ∧
      (out.map fun e => (e.key, e.value)).Perm (es.map fun e => (e.key, e.value)) := by
  have hf := foldl_writeObject es {} (fun e he => (hk e he).1) (by simpa using hnd) (by simp [KeysSorted])
  simp only [List.nil_append] at hf
  obtain ⟨hsort, hperm⟩ := hf
  have hw : writeAll .object es =
      enc (.obj (es.foldl (fun w e => (writeEntry .object w e).1) {}).obj) := rfl
  rw [hw]
  generalize (es.foldl (fun w e => (writeEntry .object w e).1) {}).obj = m at hsort hperm
  have hmem : ∀ kv ∈ m, ∃ e ∈ es, kv = (e.key, e.value) := by
    intro kv hkv
    have := hperm.mem_iff.mp hkv
    simp at this
    obtain ⟨e, he, h⟩ := this
    exact ⟨e, he, h.symm⟩
  obtain ⟨r, h1, _, h3⟩ := readAll_object m
    (by intro kv h; obtain ⟨e, he, rfl⟩ := hmem kv h; exact (hk e he).2)
    (by intro kv h; obtain ⟨e, he, rfl⟩ := hmem kv h; exact hs e he)
    (by have := hperm.length_eq; simp at this; omega) (enc (.obj m)) [] (by simp)
  refine ⟨r, h1, ?_, ?_⟩
  · rw [h3 rfl]; exact List.pairwise_map.mpr hsort
  · rw [h3 rfl]
    simp only [keyed, List.map_map]
    have : ((fun e : Entry => (e.key, e.value)) ∘ fun kv : Bytes × Val => { key := kv.1, value := kv.2 }) = id := rfl
    rw [this, List.map_id]; exact hperm

example : readAll .object (writeAll .object
    [{ key := b!"b", value := .int 1 }, { key := b!"a", value := .str b!"x" }])
  = ([{ key := b!"a", value := .str b!"x" }, { key := b!"b", value := .int 1 }], .eof) := by decide +kernel

/-- entries an object writer takes: those with a non-empty key not taken before -/
def takenObj (seen : List Bytes) : List Entry → List Entry
  | [] => []
  | e :: es => if e.key = [] ∨ e.key ∈ seen then takenObj seen es else e :: takenObj (e.key :: seen) es

/-- the outcomes of writing entries one after the other -/
def writeFlags (tl : TopLevel) : Writer → List Entry → List Bool
  | _, [] => []
  | w, e :: es => (writeEntry tl w e).2 :: writeFlags tl (writeEntry tl w e).1 es

theorem writeObj_taken (es : List Entry) (w : Writer) (seen : List Bytes) (hseen : ∀ k, (mapGet w.obj k).isSome = true ↔ k ∈ seen) :
    es.foldl (fun w e => (writeEntry .object w e).1) w = (takenObj seen es).foldl (fun w e => (writeEntry .object w e).1) w ∧
    ((es.zip (writeFlags .object w es)).filter (·.2)).map (·.1) = takenObj seen es := by
  induction es generalizing w seen with
  | nil => simp [takenObj, writeFlags]
  | cons e es ih =>
    by_cases hc : e.key = [] ∨ e.key ∈ seen
    · have hw : writeEntry .object w e = (w, false) := by
        unfold writeEntry
        by_cases hk : e.key = []
        · simp [hk]
        · simp [hk, (hseen e.key).mpr (by simpa [hk] using hc)]
      obtain ⟨h1, h2⟩ := ih w seen hseen
      simp only [takenObj, if_pos hc, List.foldl_cons, hw, writeFlags, List.zip_cons_cons]
      exact ⟨h1, by simpa using h2⟩
    · have hk : e.key ≠ [] := fun h => hc (.inl h)
      have hn : mapGet w.obj e.key = none := by
        have : ¬ (mapGet w.obj e.key).isSome = true := fun h => hc (.inr ((hseen e.key).mp h))
        simpa using this
      have hw : writeEntry .object w e = ({ w with obj := mapSet w.obj e.key e.value }, true) := by
        simp [writeEntry, hk, hn]
      obtain ⟨h1, h2⟩ := ih { w with obj := mapSet w.obj e.key e.value } (e.key :: seen) (by
        intro k
        by_cases hke : k = e.key
        · subst hke; simp [mapGet_mapSet_self]
        · simp only [mapGet_mapSet_ne _ _ hke, hseen, List.mem_cons, hke, false_or])
      simp only [takenObj, if_neg hc, List.foldl_cons, hw, writeFlags, List.zip_cons_cons]
      exact ⟨h1, by simp [h2]⟩

/-- The object writer accepts exactly the entries whose key is not empty and not one it has already
accepted, and its output is as if only those had been written; the array writer accepts everything. -/
theorem C20_rejected_entries_leave_no_trace (es : List Entry) :
    ((es.zip (writeFlags .object {} es)).filter (·.2)).map (·.1) = takenObj [] es ∧
    writeAll .object es = writeAll .object (takenObj [] es) ∧
    writeFlags .array {} es = es.map fun _ => true := by
  have h := writeObj_taken es {} [] (by simp [mapGet])
  refine ⟨h.2, by unfold writeAll; rw [h.1], ?_⟩
  have : ∀ w, writeFlags .array w es = es.map fun _ => true := by
    induction es with
    | nil => intro w; rfl
    | cons e es ih => intro w; simp only [writeFlags, List.map_cons, List.cons.injEq]; exact ⟨rfl, ih (writeObj_taken es {} [] (by simp [mapGet])) _⟩
  exact this {}

example : takenObj [] [{ key := b!"b", value := .int 1 }, { key := [], value := .null }, { key := b!"b", value := .int 2 }] =
    [{ key := b!"b", value := .int 1 }] := rfl

/-- C20 is false for integers below -24: a body holding one such integer cannot be read back. -/
theorem C20_negative_int_rejected (i : Int) (h1 : -(2^63) ≤ i) (h2 : i < -24) :
    ∃ b, readAll .array (writeAll .array [{ value := .int i }]) = ([], .unknownTag b) := by
  have hw : writeAll .array [{ value := .int i }] = 0x81 :: encUint 0x20 (-1 - i).toNat := by
    simp only [writeAll, close, List.foldl, writeEntry, enc, encList, List.nil_append, List.append_nil]
    rw [if_pos (by omega)]
    rfl
  have hinfo : 0x18 ≤ headInfo (-1 - i).toNat := by
    unfold headInfo
    rw [if_neg (by omega)]
    split; · omega
    split; · omega
    split <;> omega
  have hlt := headInfo_lt (-1 - i).toNat
  refine ⟨0x20 + UInt8.ofNat (headInfo (-1 - i).toNat), ?_⟩
  rw [hw, encUint_eq]
  generalize headInfo (-1 - i).toNat = k at hinfo hlt
  obtain ⟨e1, e2, e3⟩ := head_and 0x20 (by simp [IsBase]) k hlt
  have e3' : (0x20 + UInt8.ofNat k).toNat = 0x20 + k := e3
  have hr : ∀ f (s : Bytes), readValue (f+1) ((0x20 + UInt8.ofNat k) :: s) = .err (.unknownTag (0x20 + UInt8.ofNat k)) := by
    intro f s
    have c1 : ¬ (0x20 + UInt8.ofNat k) < 0x1c := by rw [UInt8.lt_iff_toNat_lt, e3']; simp; omega
    have c2 : ¬ (0x20 ≤ (0x20 + UInt8.ofNat k) ∧ (0x20 + UInt8.ofNat k) < 0x38) := by
      rw [UInt8.lt_iff_toNat_lt, UInt8.le_iff_toNat_le, e3']; simp; omega
    rw [readValue, if_neg c1, if_neg c2,
      if_neg (toNat_ne (c := 0xf6) (by simp; omega)), if_neg (toNat_ne (c := 0xf4) (by simp; omega)),
      if_neg (toNat_ne (c := 0xf5) (by simp; omega)), if_neg (toNat_ne (c := 0xf9) (by simp; omega)),
      if_neg (toNat_ne (c := 0xfa) (by simp; omega)), if_neg (toNat_ne (c := 0xfb) (by simp; omega)),
      if_neg (toNat_ne (c := 0x5f) (by simp; omega)), if_neg (toNat_ne (c := 0x7f) (by simp; omega)),
      if_neg (toNat_ne (c := 0x9f) (by simp; omega)), if_neg (toNat_ne (c := 0xbf) (by simp; omega)), e2]
    rfl
  have hst : ∀ s, start .array { inp := 0x81 :: s } = .ok { length := 1, inp := s } := fun s => rfl
  rw [readAll, readLoop_fresh _ _ _ rfl, hst, List.length_cons]
  simp only [bodyLoop, readBody]
  rw [if_neg (by decide)]
  simp only [fuelFor, List.length_cons]
  rw [hr]

/-- C20 is false for text longer than the reader's 4096 byte buffer. -/
theorem C20_long_string_rejected (s : Bytes) (h1 : 4096 < s.length) (h2 : s.length < 2^63) :
    readAll .array (writeAll .array [{ value := .str s }]) = ([], .bufferFull) := by
  have hw : writeAll .array [{ value := .str s }] = 0x81 :: (encUint 0x60 s.length ++ s) := by
    simp only [writeAll, close, List.foldl, writeEntry, enc, encList, List.nil_append, List.append_nil]
    rfl
  have hst : ∀ s, start .array { inp := 0x81 :: s } = .ok { length := 1, inp := s } := fun s => rfl
  rw [readAll, hw, readLoop_fresh _ _ _ rfl, hst, List.length_cons]
  simp only [bodyLoop, readBody]
  rw [if_neg (by decide)]
  simp only [fuelFor]
  rw [encUint_eq, List.cons_append, readValue_str_head _ _ (headInfo_lt _), readLengthPrefixedBytes,
    getVarLenInt_enc _ (by simp [IsBase]) _ h2]
  have hb : bufSize = 4096 := rfl
  simp only [readBytes]
  rw [if_neg (by omega), if_pos (by omega)]
  rfl

example : readAll .array (writeAll .array [{ value := .int (-25) }]) = ([], .unknownTag 0x38) := by decide +kernel

/-! ## C21 – totality and progress -/

theorem readTopLevel_length {s rest : Bytes} {x : UInt8 × Int} (ht : readTopLevel s = .ok x rest) :
    rest.length ≤ s.length := by
  unfold readTopLevel at ht
  split at ht; · simp at ht
  simp only at ht
  split at ht; · simp at ht
  split at ht
  · simp at ht; rw [← ht.2]; simp
  · split at ht
    · rename_i hg
      have := (getVarLenInt_suffix hg).length_le
      simp at ht
      rw [← ht.2]; simp; omega
    · simp at ht

theorem readEntry_length {tl : TopLevel} {r r' : Reader} {e : Entry} (h : readEntry tl r = .ok (e, r')) :
    r'.inp.length < r.inp.length := by
  unfold readEntry start at h
  split at h
  · simp at h
  · rename_i r1 hs
    have h1 := (readBody_rows h).2.2
    split at hs
    · split at hs; · simp at hs
      rename_i t n rest ht
      split at hs; · simp at hs
      simp at hs
      rw [← hs] at h1
      simp only at h1
      have := readTopLevel_length ht
      omega
    · simp at hs; rw [hs]; exact h1

theorem readEntry_ne_fuel (tl : TopLevel) (r : Reader) : readEntry tl r ≠ .error .fuel := by
  have hv : ∀ s : Bytes, readValue (fuelFor s) s ≠ .err .fuel := fun s =>
    ((total_all (fuelFor s)).1 s (by simp [fuelFor])).1
  have hb : ∀ r, readBody tl r ≠ .error .fuel := by
    intro r h
    unfold readBody at h
    split at h; · simp at h
    cases tl with
    | object =>
      simp only at h
      split at h
      · rename_i hk; simp at h; rw [h] at hk; exact readStringKey_ne_fuel _ hk
      · split at h
        · rename_i hx; simp at h; rw [h] at hx; exact hv _ hx
        · simp at h
    | array =>
      simp only at h
      split at h
      · rename_i hx; simp at h; rw [h] at hx; exact hv _ hx
      · simp at h
  unfold readEntry
  intro h
  split at h
  · rename_i hs
    simp at h; subst h
    unfold start at hs
    split at hs
    · split at hs
      · rename_i ht
        simp at hs; rw [hs] at ht
        unfold readTopLevel at ht
        split at ht; · simp at ht
        simp only at ht
        split at ht; · simp at ht
        split at ht; · simp at ht
        split at ht; · simp at ht
        rename_i hg; simp at ht; rw [ht] at hg; exact getVarLenInt_ne_fuel _ _ hg
      · split at hs <;> simp at hs
    · simp at hs
  · exact hb _ h

/-- C21: for every input the reader stops, after at most one entry per input byte, with a
definite outcome (end-of-file, an error, or a panic) that does not depend on the recursion bounds
used to define the model. -/
theorem C21_reader_total (tl : TopLevel) (body : Bytes) :
    (readAll tl body).2 ≠ .fuel ∧ (readAll tl body).1.length ≤ body.length ∧
    ∀ f, body.length < f → readLoop tl f { inp := body } = readAll tl body := by
  suffices h : ∀ (f : Nat) (r : Reader), r.inp.length < f →
      (readLoop tl f r).2 ≠ .fuel ∧ (readLoop tl f r).1.length ≤ r.inp.length ∧
      ∀ f', r.inp.length < f' → readLoop tl f' r = readLoop tl f r by
    exact h (body.length + 1) { inp := body } (by simp)
  intro f
  induction f with
  | zero => intro r h; omega
  | succ f ih =>
    intro r hr
    have hne := readEntry_ne_fuel tl r
    rw [readLoop]
    cases he : readEntry tl r with
    | error e =>
      rw [he] at hne
      refine ⟨by simpa using hne, by simp, ?_⟩
      intro f' hf'
      cases f' with
      | zero => omega
      | succ f' => rw [readLoop, he]
    | ok x =>
      obtain ⟨ent, r'⟩ := x
      have hl := readEntry_length he
      obtain ⟨h1, h2, h3⟩ := ih r' (by omega)
      refine ⟨h1, by simp only [List.length_cons]; omega, ?_⟩
      intro f' hf'
      cases f' with
      | zero => omega
      | succ f' => rw [readLoop, he]; simp only; rw [h3 f' (by omega)]

example : readAll .array [0x82, 0x9f, 0x01, 0xff, 0x61] = ([{ index := 0, value := .arr [.int 1] }], .eof) := by
  decide +kernel

/-- nesting depth of a value -/
def depth : Val → Nat
  | .arr l => 1 + depthL l
  | .obj m => 1 + depthF m
  | _ => 1
where
  depthL : List Val → Nat
    | [] => 0
    | v :: t => max (depth v) (depthL t)
  depthF : List (Bytes × Val) → Nat
    | [] => 0
    | (_, v) :: t => max (depth v) (depthF t)

theorem depthF_mapSet (m : List (Bytes × Val)) (k : Bytes) (v : Val) :
    depth.depthF (mapSet m k v) ≤ max (depth.depthF m) (depth v) := by
  induction m with
  | nil => simp [mapSet, depth.depthF]
  | cons x t ih =>
    obtain ⟨k', v'⟩ := x
    simp only [mapSet]
    split
    · simp [depth.depthF]; omega
    · split
      · simp [depth.depthF]; omega
      · simp [depth.depthF] at ih ⊢; omega

theorem depth_all : ∀ f : Nat,
    (∀ (s : Bytes) v r, readValue f s = .ok v r → depth v + r.length ≤ s.length) ∧
    (∀ n (s : Bytes) l r, readArray f n s = .ok l r → depth.depthL l + r.length ≤ s.length) ∧
    (∀ n acc (s : Bytes) m r, readMap f n acc s = .ok m r →
      depth.depthF m ≤ max (depth.depthF acc) (s.length - r.length))
  | 0 => by
    refine ⟨?_, ?_, ?_⟩ <;> intros <;> simp_all [readValue, readArray, readMap]
  | f + 1 => by
    obtain ⟨hV, hA, hM⟩ := depth_all f
    refine ⟨?_, ?_, ?_⟩
    · intro s v r h
      have hp := (readValue_progress h).2
      by_cases hd : depth v = 1
      · omega
      · cases s with
        | nil => simp at hp
        | cons b s =>
          have key : ∀ (P : Res Val), P = .ok v r →
              (∃ n s' l, (s'.length ≤ s.length) ∧ readArray f n s' = .ok l r ∧ v = .arr l) ∨
              (∃ n s' m, (s'.length ≤ s.length) ∧ readMap f n [] s' = .ok m r ∧ v = .obj m) →
              depth v + r.length ≤ (b :: s).length := by
            intro _ _ hh
            rcases hh with ⟨n, s', l, hs', h1, rfl⟩ | ⟨n, s', m, hs', h1, rfl⟩
            · have := hA _ _ _ _ h1
              simp [depth]; omega
            · have h2 := hM _ _ _ _ _ h1
              have h3 := ((progress_all f).2.2 _ _ _ _ _ h1).length_le
              simp [depth, depth.depthF] at h2 ⊢; omega
          apply key _ h
          clear key
          rw [readValue] at h
          have mapCase : ∀ {α : Type} {x : Res α} {g : α → Val}, x.map g = .ok v r → ∃ a, x = .ok a r ∧ v = g a := by
            intro α x g hx
            cases x with
            | ok a r' => simp [Res.map] at hx; exact ⟨a, by rw [hx.2], hx.1.symm⟩
            | err e => simp [Res.map] at hx
          have atom : ∀ {α : Type} {x : Res α} {g : α → Val}, (∀ a, depth (g a) = 1) → x.map g = .ok v r → False := by
            intro α x g hg hx
            obtain ⟨a, _, rfl⟩ := mapCase hx
            exact hd (hg a)
          have iteCase : ∀ {c : Prop} [Decidable c] {x y : Res Val} {G : Prop}, (if c then x else y) = .ok v r →
              (c → x = .ok v r → G) → (¬c → y = .ok v r → G) → G := by
            intro c _ x y G h h1 h2
            split at h
            · exact h1 ‹_› h
            · exact h2 ‹_› h
          refine iteCase h (fun _ h => (atom (fun _ => rfl) h).elim) fun _ h => ?_
          refine iteCase h (fun _ h => by simp at h; rw [← h.1] at hd; exact (hd rfl).elim) fun _ h => ?_
          refine iteCase h (fun _ h => by simp at h; rw [← h.1] at hd; exact (hd rfl).elim) fun _ h => ?_
          refine iteCase h (fun _ h => by simp at h; rw [← h.1] at hd; exact (hd rfl).elim) fun _ h => ?_
          refine iteCase h (fun _ h => by simp at h; rw [← h.1] at hd; exact (hd rfl).elim) fun _ h => ?_
          refine iteCase h (fun _ h => (atom (fun _ => rfl) h).elim) fun _ h => ?_
          refine iteCase h (fun _ h => (atom (fun _ => rfl) h).elim) fun _ h => ?_
          refine iteCase h (fun _ h => (atom (fun _ => rfl) h).elim) fun _ h => ?_
          refine iteCase h (fun _ h => (atom (fun _ => rfl) h).elim) fun _ h => ?_
          refine iteCase h (fun _ h => (atom (fun _ => rfl) h).elim) fun _ h => ?_
          refine iteCase h (fun _ h => ?_) fun _ h => ?_
          · obtain ⟨l, h1, h2⟩ := mapCase h
            exact Or.inl ⟨-1, s, l, by omega, h1, h2⟩
          refine iteCase h (fun _ h => ?_) fun _ h => ?_
          · obtain ⟨l, h1, h2⟩ := mapCase h
            exact Or.inr ⟨-1, s, l, by omega, h1, h2⟩
          refine iteCase h (fun _ h => (atom (fun _ => rfl) h).elim) fun _ h => ?_
          refine iteCase h (fun _ h => (atom (fun _ => rfl) h).elim) fun _ h => ?_
          refine iteCase h (fun _ h => ?_) fun _ h => ?_
          · split at h; · simp at h
            rename_i len r' hg
            have hl := (getVarLenInt_suffix hg).length_le
            split at h; · simp at h
            obtain ⟨l, h1, h2⟩ := mapCase h
            exact Or.inl ⟨len, r', l, hl, h1, h2⟩
          refine iteCase h (fun _ h => ?_) fun _ h => ?_
          · split at h; · simp at h
            rename_i len r' hg
            have hl := (getVarLenInt_suffix hg).length_le
            obtain ⟨l, h1, h2⟩ := mapCase h
            exact Or.inr ⟨len, r', l, hl, h1, h2⟩
          refine iteCase h (fun _ h => by simp at h; rw [← h.1] at hd; exact (hd rfl).elim) fun _ h => ?_
          refine iteCase h (fun _ h => by simp at h; rw [← h.1] at hd; exact (hd rfl).elim) fun _ h => ?_
          simp at h
    · intro n s l r h
      have hp := ((progress_all (f+1)).2.1 _ _ _ _ h).length_le
      rw [readArray] at h
      split at h
      · simp at h; rw [h.1]; simp only [depth.depthL]; omega
      split at h
      · simp at h; rw [h.1]; simp only [depth.depthL]; omega
      split at h; · simp at h
      rename_i hv
      split at h; · simp at h
      rename_i ha
      have h1 := hV _ _ _ hv
      have h2 := hA _ _ _ _ ha
      have h3 := ((progress_all f).2.1 _ _ _ _ ha).length_le
      have h4 := (readValue_progress hv).2
      simp at h; rw [← h.1, ← h.2]; simp only [depth.depthL]; omega
    · intro n acc s m r h
      rw [readMap] at h
      split at h
      · simp at h; rw [← h.1]; omega
      split at h
      · simp at h; rw [← h.1]; omega
      split at h; · simp at h
      rename_i k _ hk
      split at h; · simp at h
      rename_i v _ hv
      have h1 := hV _ _ _ hv
      have h2 := hM _ _ _ _ _ h
      have h3 := ((progress_all f).2.2 _ _ _ _ _ h).length_le
      have h4 := (readValue_progress hv).2
      have h5 := (readStringKey_suffix hk).2
      have h6 := depthF_mapSet acc k v
      omega

/-- C21: a value is never nested deeper than the number of bytes it was read from. -/
theorem C21_depth_bounded (f : Nat) (s : Bytes) (v : Val) (r : Bytes) (h : readValue f s = .ok v r) :
    depth v + r.length ≤ s.length := (depth_all f).1 s v r h

example : readValue 20 [0x81, 0x81, 0x81, 0x00] = .ok (.arr [.arr [.arr [.int 0]]]) [] ∧
    depth (.arr [.arr [.arr [.int 0]]]) = 4 := by decide +kernel

/-- "Never crashes" is false: ten bytes make the reader panic by declaring a nested array of
2^63-1 elements. -/
theorem C21_crash_witness :
    readAll .array [0x81, 0x9b, 0x7f, 0xff, 0xff, 0xff, 0xff, 0xff, 0xff, 0xff] = ([], .panic) := by
  decide +kernel

theorem getVarLenInt_long (b : UInt8) (s : Bytes) (h : 8 ≤ s.length) : getVarLenInt b s ≠ .err .eof := by
  have key : ∀ n : Int, n ≤ 8 → readIntBytes n s ≠ .err .eof := by
    intro n hn
    unfold readIntBytes readBytes
    rw [if_neg (show ¬ (s.length : Int) < n by omega)]
    split
    · simp
    · rename_i e he
      split at he
      · cases he; simp
      · split at he <;> cases he
        simp
  unfold getVarLenInt
  simp only
  repeat' split
  all_goals first | exact key _ (by omega) | simp

/-- A body whose outermost container is of the other kind (or is no container at all) yields no entries and,
unless it is too short to hold a header, an error other than end-of-file. -/
theorem C21_wrong_container_rejected (tl : TopLevel) (b : UInt8) (s : Bytes) (h : b &&& 0xe0 ≠ topByte tl) :
    (readAll tl (b :: s)).1 = [] ∧ (8 ≤ s.length → (readAll tl (b :: s)).2 ≠ .eof) := by
  have hs : ∃ e, start tl { inp := b :: s } = .error e ∧ (8 ≤ s.length → e ≠ .eof) := by
    unfold start readTopLevel
    simp only [if_true]
    by_cases h1 : b &&& 0xe0 ≠ 0x80 ∧ b &&& 0xe0 ≠ 0xa0
    · rw [if_pos h1]; exact ⟨_, rfl, by simp⟩
    · rw [if_neg h1]
      by_cases h2 : b &&& 0x1f = 0x1f
      · rw [if_pos h2]; simp only [if_pos h]; exact ⟨_, rfl, by simp⟩
      · rw [if_neg h2]
        cases hg : getVarLenInt b s with
        | ok n r => simp only [if_pos h]; exact ⟨_, rfl, by simp⟩
        | err e => exact ⟨e, rfl, fun hl he => getVarLenInt_long b s hl (by rw [hg, he])⟩
  obtain ⟨e, he, hne⟩ := hs
  have : readAll tl (b :: s) = ([], e) := by
    unfold readAll
    rw [readLoop, readEntry, he]
  rw [this]
  exact ⟨rfl, hne⟩

example : readAll .array [0xa1, 0x61, 97, 1, 0, 0, 0, 0, 0] = ([], .topMismatch) := by decide +kernel

/-! ## C22 – truncated bodies -/

/-- C22 is false, for every body and every cut: reading any proper part of an array body
written by the CBOR writer delivers some first entries and then reports clean end-of-file, never
an error.  (What remains true of C22: the entries delivered are a prefix of the original ones.) -/
theorem C22_truncation_undetected_array (es : List Entry) (hs : ∀ e ∈ es, Supported e.value)
    (hl : es.length < 2^63) (k : Nat) :
    ∃ out, readAll .array ((writeAll .array es).take k) = (out, .eof) ∧
      out <+: indexed 0 (es.map (·.value)) := by
  have hw : writeAll .array es = enc (.arr (es.map (·.value))) := by
    simp [writeAll, close, foldl_writeArray]
  obtain ⟨r, h1, h2, _⟩ := readAll_array (es.map (·.value))
    (by intro v hv; simp at hv; obtain ⟨e, he, rfl⟩ := hv; exact hs e he)
    (by simpa using hl) ((writeAll .array es).take k) ((writeAll .array es).drop k) (by simp [hw])
  exact ⟨r, h1, h2⟩

/-- C22 for object bodies: truncation is never detected, the entries delivered are a prefix of
the full reading. -/
theorem C22_truncation_undetected_object (m : List (Bytes × Val)) (hk : ∀ kv ∈ m, kv.1.length ≤ 4096)
    (hs : ∀ kv ∈ m, Supported kv.2) (hl : m.length < 2^63) (k : Nat) :
    ∃ out, readAll .object ((enc (.obj m)).take k) = (out, .eof) ∧
      out <+: (readAll .object (enc (.obj m))).1 := by
  obtain ⟨r0, h1, _, h3⟩ := readAll_object m hk hs hl (enc (.obj m)) [] (by simp)
  obtain ⟨r, h4, h5, _⟩ := readAll_object m hk hs hl ((enc (.obj m)).take k) ((enc (.obj m)).drop k) (by simp)
  exact ⟨r, h4, by rw [h1, h3 rfl]; exact h5⟩

example : readAll .array ((writeAll .array [{ value := .int 1 }, { value := .str b!"hello" }]).take 5)
  = ([{ index := 0, value := .int 1 }], .eof) := by decide +kernel

end Verif.Cbor
