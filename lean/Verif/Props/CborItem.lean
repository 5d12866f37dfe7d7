import Verif.Lemmas.CborItem
import Verif.Lemmas.Map
/-
C87: CBOR that others wrote.
-/
set_option autoImplicit false
namespace Verif.CborItem
open Verif.Cbor

mutual
/-- no tags and no simple values of two bytes -/
def Item.Plain : Item → Prop
  | .arr _ l => PlainL l
  | .map _ l => PlainM l
  | .tag _ _ _ => False
  | .simple n => n < 24
  | _ => True
def PlainL : List Item → Prop
  | [] => True
  | i :: l => i.Plain ∧ PlainL l
def PlainM : List (Item × Item) → Prop
  | [] => True
  | (_, i) :: l => i.Plain ∧ PlainM l
end

mutual
/-- the items that are read as what they stand for -/
def Item.Fits : Item → Prop
  | .uint _ n => n < 2 ^ 63
  | .nint w _ => w = .w0
  | .bytes _ s => s.length ≤ 4096
  | .byteChunks l => ∀ c ∈ l, c.2.length ≤ 4096
  | .text _ s => s.length ≤ 4096
  | .textChunks l => ∀ c ∈ l, c.2.length ≤ 4096
  | .arr w l => (w = none ∨ l.length ≤ 2 ^ 44) ∧ FitsL l
  | .map _ l => FitsM l
  | .tag _ _ _ => False
  | .simple n => 20 ≤ n ∧ n ≤ 23
  | .half n => n = 0
  | .single n => n = 0
  | .double _ => True
def FitsL : List Item → Prop
  | [] => True
  | i :: l => i.Fits ∧ FitsL l
def FitsM : List (Item × Item) → Prop
  | [] => True
  | (k, i) :: l => (∃ w s, k = .text w s ∧ s.length ≤ 4096) ∧ i.Fits ∧ FitsM l
end

/-! ### first bytes -/

theorem first_head (major : Nat) (w : Width) (n : Nat) (r : Bytes) : ∃ b t, head major w n ++ r = b :: t := ⟨_, _, rfl⟩

theorem encoded_pos (i : Item) : 0 < i.encoded.length := by
  cases i with
  | simple n => simp only [Item.encoded]; split <;> simp
  | arr w l => cases w <;> simp [Item.encoded, container, head]
  | map w l => cases w <;> simp [Item.encoded, container, head]
  | _ => simp [Item.encoded, head]

/-- no item begins with a break -/
theorem encoded_break (i : Item) (hv : i.Valid) (r : Bytes) : readBreak (i.encoded ++ r) = none := by
  cases i with
  | uint w n => exact head_ne_break (by decide) hv r
  | nint w n => exact head_ne_break (by decide) hv r
  | bytes w s => rw [Item.encoded, List.append_assoc]; exact head_ne_break (by decide) hv _
  | text w s => rw [Item.encoded, List.append_assoc]; exact head_ne_break (by decide) hv _
  | byteChunks l => rfl
  | textChunks l => rfl
  | arr w l =>
    cases w with
    | none => rfl
    | some w =>
      simp only [Item.Valid] at hv
      rw [Item.encoded, container, List.append_assoc]; exact head_ne_break (by decide) (hv.1 w rfl) _
  | map w l =>
    cases w with
    | none => rfl
    | some w =>
      simp only [Item.Valid] at hv
      rw [Item.encoded, container, List.append_assoc]; exact head_ne_break (by decide) (hv.1 w rfl) _
  | tag w n i =>
    have hw : w.info n < 28 := info_lt hv.1
    have : ∀ k < 28, ¬ base 6 + UInt8.ofNat k = 0xff := by decide
    rw [Item.encoded, head_eq]
    simp only [List.cons_append, readBreak, if_neg (this _ hw)]
  | simple n =>
    rw [Item.encoded]
    split
    · rename_i hn
      have : ∀ n < 24, ¬ UInt8.ofNat (0xe0 + n) = 0xff := by decide
      simp only [List.cons_append, readBreak, if_neg (this n hn)]
    · rfl
  | half n => rfl
  | single n => rfl
  | double n => rfl

/-- what may come of a read: an error that is not the end, or the right rest and, if everything fits, the right value -/
def Outcome {α : Type} (x : Res α) (means : α → Prop) (fits : Prop) (rest : Bytes) : Prop :=
  (∃ e, e ≠ Err.eof ∧ x = .err e ∧ ¬ fits) ∨ (∃ a, x = .ok a rest ∧ (means a ↔ fits))

theorem Outcome.map {α β : Type} {x : Res α} {g : α → β} {means : α → Prop} {means' : β → Prop} {fits : Prop} {rest : Bytes}
    (h : Outcome x means fits rest) (hg : ∀ a, means' (g a) ↔ means a) : Outcome (x.map g) means' fits rest := by
  rcases h with ⟨e, h0, h1, h2⟩ | ⟨a, h1, h2⟩
  · exact .inl ⟨e, h0, by rw [h1]; rfl, h2⟩
  · exact .inr ⟨g a, by rw [h1]; rfl, by rw [hg]; exact h2⟩

/-- the end of a container of `n` elements -/
def Ends (len : Int) (n : Nat) (tail rest : Bytes) : Prop := len = n ∧ tail = rest ∨ len = -1 ∧ tail = 0xff :: rest

theorem float_read (k n : Nat) (hk : k ≤ 8) (hn : n < 256 ^ k) (r : Bytes) : readFloatBytes k (toBE k n ++ r) = .ok (UInt64.ofNat n) r := by
  have h := readBytes_append (toBE k n) r (by rw [toBE_length]; omega)
  rw [toBE_length] at h
  unfold readFloatBytes
  rw [h]
  simp only [beNat_toBE k n hn]

theorem nint_long (f : Nat) (k : Nat) (hk : 24 ≤ k ∧ k < 0x1c) (s : Bytes) : ∃ e, e ≠ Err.eof ∧ readValue (f + 1) ((0x20 + UInt8.ofNat k) :: s) = .err e := by
  obtain rfl | rfl | rfl | rfl : k = 24 ∨ k = 25 ∨ k = 26 ∨ k = 27 := by omega
  all_goals exact ⟨.unknownTag _, by simp, by rw [readValue]; rfl⟩

/-- keys -/
theorem key_read (k : Item) (hv : k.Valid) (r : Bytes) :
    (∃ w s, k = .text w s ∧ s.length ≤ 4096 ∧ readStringKey (k.encoded ++ r) = .ok s r) ∨
    ((¬ ∃ w s, k = .text w s ∧ s.length ≤ 4096) ∧ ∃ e, e ≠ Err.eof ∧ readStringKey (k.encoded ++ r) = .err e) := by
  have other : ∀ (b : UInt8) (t : Bytes), k.encoded ++ r = b :: t → b &&& 0xe0 ≠ 0x60 → (¬ ∃ w s, k = .text w s ∧ s.length ≤ 4096) →
      ((¬ ∃ w s, k = .text w s ∧ s.length ≤ 4096) ∧ ∃ e, e ≠ Err.eof ∧ readStringKey (k.encoded ++ r) = .err e) := by
    intro b t he hb hk
    refine ⟨hk, .keyNotString, by simp, ?_⟩
    rw [he, readStringKey, if_pos hb]
  have hd : ∀ (major : Nat), major < 6 → major ≠ 3 → ∀ (w : Width) (n : Nat), w.Holds n → (base major + UInt8.ofNat (w.info n)) &&& 0xe0 ≠ 0x60 := by
    intro major hm h3 w n hw
    rw [(head_and _ (base_isBase hm) _ (info_lt hw)).2.1]
    have : ∀ m < 6, m ≠ 3 → base m ≠ 0x60 := by decide
    exact this major hm h3
  cases k with
  | text w s =>
    have hw : w.Holds s.length := hv
    have h2 := (head_and _ (base_isBase (major := 3) (by decide)) _ (info_lt hw)).2.1
    have e : readStringKey ((Item.text w s).encoded ++ r) = readLengthPrefixedBytes (base 3 + UInt8.ofNat (w.info s.length)) (toBE w.size s.length ++ (s ++ r)) := by
      rw [Item.encoded, List.append_assoc, head_eq, List.cons_append, readStringKey, if_neg (by rw [h2]; decide)]
      rfl
    rw [e]
    rcases prefixed_head (major := 3) (by decide) hw r with ⟨h1, h2⟩ | ⟨h1, er, h2, h3⟩
    · exact .inl ⟨w, s, rfl, h1, h2⟩
    · exact .inr ⟨fun ⟨w', s', e, h⟩ => by cases e; exact h1 h, er, h2, h3⟩
  | textChunks l => exact .inr ⟨by simp, .badVarLen _, by simp, rfl⟩
  | uint w n => exact .inr (other _ _ (by rw [Item.encoded, head_eq]; rfl) (hd 0 (by decide) (by decide) w n hv) (by simp))
  | nint w n => exact .inr (other _ _ (by rw [Item.encoded, head_eq]; rfl) (hd 1 (by decide) (by decide) w n hv) (by simp))
  | bytes w s => exact .inr (other _ _ (by rw [Item.encoded, head_eq]; rfl) (hd 2 (by decide) (by decide) w _ hv) (by simp))
  | byteChunks l => exact .inr (other 0x5f _ rfl (by decide) (by simp))
  | arr w l =>
    cases w with
    | none => exact .inr (other 0x9f _ rfl (by decide) (by simp))
    | some w =>
      simp only [Item.Valid] at hv
      exact .inr (other _ _ (by rw [Item.encoded, container, head_eq]; rfl) (hd 4 (by decide) (by decide) w _ (hv.1 w rfl)) (by simp))
  | map w l =>
    cases w with
    | none => exact .inr (other 0xbf _ rfl (by decide) (by simp))
    | some w =>
      simp only [Item.Valid] at hv
      exact .inr (other _ _ (by rw [Item.encoded, container, head_eq]; rfl) (hd 5 (by decide) (by decide) w _ (hv.1 w rfl)) (by simp))
  | tag w n i =>
    have hw : w.info n < 28 := info_lt hv.1
    have : ∀ k < 28, (base 6 + UInt8.ofNat k) &&& 0xe0 ≠ 0x60 := by decide
    exact .inr (other _ _ (by rw [Item.encoded, head_eq]; rfl) (this _ hw) (by simp))
  | simple n =>
    by_cases hn : n < 24
    · have : ∀ n < 24, UInt8.ofNat (0xe0 + n) &&& 0xe0 ≠ 0x60 := by decide
      exact .inr (other _ _ (by rw [Item.encoded, if_pos hn]; rfl) (this n hn) (by simp))
    · exact .inr (other 0xf8 _ (by rw [Item.encoded, if_neg hn]; rfl) (by decide) (by simp))
  | half n => exact .inr (other 0xf9 _ rfl (by decide) (by simp))
  | single n => exact .inr (other 0xfa _ rfl (by decide) (by simp))
  | double n => exact .inr (other 0xfb _ rfl (by decide) (by simp))

theorem simple_read (f : Nat) (n : Nat) (hn : n < 24) (r : Bytes) :
    readValue (f + 1) (UInt8.ofNat (0xe0 + n) :: r) = .ok (if n = 20 then .bool false else if n = 21 then .bool true else .null) r := by
  have : n = 0 ∨ n = 1 ∨ n = 2 ∨ n = 3 ∨ n = 4 ∨ n = 5 ∨ n = 6 ∨ n = 7 ∨ n = 8 ∨ n = 9 ∨ n = 10 ∨ n = 11 ∨ n = 12 ∨ n = 13 ∨ n = 14 ∨ n = 15 ∨ n = 16 ∨ n = 17 ∨
    n = 18 ∨ n = 19 ∨ n = 20 ∨ n = 21 ∨ n = 22 ∨ n = 23 := by omega
  rcases this with rfl | rfl | rfl | rfl | rfl | rfl | rfl | rfl | rfl | rfl | rfl | rfl | rfl | rfl | rfl | rfl | rfl | rfl | rfl | rfl | rfl | rfl | rfl | rfl
  all_goals rw [readValue]; rfl

theorem str_outcome {x : Res Bytes} {s rest : Bytes} {P : Prop} {g : Bytes → Val}
    (h : (P ∧ x = .ok s rest) ∨ (¬ P ∧ ∃ e, e ≠ Err.eof ∧ x = .err e)) :
    Outcome (x.map g) (fun v => v = g s) P rest := by
  rcases h with ⟨h1, h2⟩ | ⟨h1, e, h2, h3⟩
  · exact .inr ⟨g s, by rw [h2]; rfl, by simp [h1]⟩
  · exact .inl ⟨e, h2, by rw [h3]; rfl, h1⟩

mutual
theorem read_item : ∀ (i : Item), i.Valid → i.Plain → ∀ (f : Nat) (rest : Bytes), 2 * i.encoded.length + 1 ≤ f →
    Outcome (readValue f (i.encoded ++ rest)) i.Means i.Fits rest
  | _, _, _, 0, _, h => by omega
  | .uint w n, hv, _, f + 1, rest, _ => by
    have hw : w.Holds n := hv
    rw [Item.encoded, head_eq, List.cons_append, show base 0 = 0x00 from rfl, readValue_uint_head _ _ (info_lt hw)]
    have := getVarLen_head (major := 0) (by decide) hw rest
    rw [show base 0 = 0x00 from rfl] at this
    rw [this]
    refine .inr ⟨_, rfl, ?_⟩
    have hl := holds_lt hw
    simp only [Item.Means, Item.Fits, Val.int.injEq, toInt64]
    split <;> omega
  | .nint w n, hv, _, f + 1, rest, _ => by
    have hw : w.Holds n := hv
    rw [Item.encoded, head_eq, List.cons_append, show base 1 = 0x20 from rfl]
    by_cases h0 : w = .w0
    · subst h0
      simp only [Width.info, Width.size, toBE, List.nil_append]
      rw [readValue_neg_head _ _ hw]
      exact .inr ⟨_, rfl, by simp [Item.Means, Item.Fits]⟩
    · have hk : 24 ≤ w.info n ∧ w.info n < 0x1c := ⟨by cases w <;> simp [Width.info] at *, info_lt hw⟩
      obtain ⟨e, h1, h2⟩ := nint_long f _ hk (toBE w.size n ++ rest)
      exact .inl ⟨e, h1, h2, by simp [Item.Fits, h0]⟩
  | .bytes w s, hv, _, f + 1, rest, _ => by
    have hw : w.Holds s.length := hv
    rw [Item.encoded, List.append_assoc, head_eq, List.cons_append, show base 2 = 0x40 from rfl, readValue_bytes_head _ _ (info_lt hw)]
    have := prefixed_head (major := 2) (by decide) hw rest
    exact str_outcome (g := Val.bytes) this
  | .byteChunks l, hv, _, f + 1, rest, hf => by
    have e : (Item.byteChunks l).encoded = 0x5f :: chunksBytes 2 l := rfl
    rw [e] at hf ⊢
    rw [List.cons_append]
    have : readValue (f + 1) (0x5f :: (chunksBytes 2 l ++ rest)) = (readChunks f (chunksBytes 2 l ++ rest)).map Val.bytes := by rw [readValue]; rfl
    rw [this]
    exact str_outcome (g := Val.bytes) (chunks_read (by decide) l hv f rest (by simp at hf; omega))
  | .text w s, hv, _, f + 1, rest, _ => by
    have hw : w.Holds s.length := hv
    rw [Item.encoded, List.append_assoc, head_eq, List.cons_append, show base 3 = 0x60 from rfl, readValue_str_head _ _ (info_lt hw)]
    have := prefixed_head (major := 3) (by decide) hw rest
    exact str_outcome (g := Val.str) this
  | .textChunks l, hv, _, f + 1, rest, hf => by
    have e : (Item.textChunks l).encoded = 0x7f :: chunksBytes 3 l := rfl
    rw [e] at hf ⊢
    rw [List.cons_append]
    have : readValue (f + 1) (0x7f :: (chunksBytes 3 l ++ rest)) = (readChunks f (chunksBytes 3 l ++ rest)).map Val.str := by rw [readValue]; rfl
    rw [this]
    exact str_outcome (g := Val.str) (chunks_read (by decide) l hv f rest (by simp at hf; omega))
  | .arr none l, hv, hp, f + 1, rest, hf => by
    simp only [Item.Valid] at hv
    simp only [Item.Plain] at hp
    have e : (Item.arr none l).encoded = 0x9f :: (encodedL l ++ [0xff]) := rfl
    rw [e] at hf ⊢
    have : readValue (f + 1) (0x9f :: (encodedL l ++ [0xff]) ++ rest) = (readArray f (-1) (encodedL l ++ 0xff :: rest)).map Val.arr := by
      rw [List.cons_append, List.append_assoc, readValue]; rfl
    rw [this]
    have ih := read_items l hv.2.2 hp f (-1) (0xff :: rest) rest (.inr ⟨rfl, rfl⟩) (by simp at hf; omega)
    rw [show (Item.arr none l).Fits = (((none : Option Width) = none ∨ l.length ≤ 2 ^ 44) ∧ FitsL l) by rw [Item.Fits]]
    simp only [true_or, true_and]
    exact ih.map (by simp [Item.Means])
  | .arr (some w) l, hv, hp, f + 1, rest, hf => by
    simp only [Item.Valid] at hv
    simp only [Item.Plain] at hp
    have hw : w.Holds l.length := hv.1 w rfl
    have e : (Item.arr (some w) l).encoded = head 4 w l.length ++ encodedL l := rfl
    rw [e] at hf ⊢
    rw [List.append_assoc, head_eq, List.cons_append, show base 4 = 0x80 from rfl, readValue_arr_head _ _ (info_lt hw)]
    have hg := getVarLen_head (major := 4) (by decide) hw (encodedL l ++ rest)
    rw [show base 4 = 0x80 from rfl, toInt64_small hv.2.1] at hg
    rw [hg]
    simp only
    have hc : maxCap = 2 ^ 44 := rfl
    by_cases hl : l.length ≤ 2 ^ 44
    · rw [if_neg (by omega)]
      have ih := read_items l hv.2.2 hp f l.length rest rest (.inl ⟨rfl, rfl⟩) (by simp [head] at hf; omega)
      rw [show (Item.arr (some w) l).Fits = (((some w : Option Width) = none ∨ l.length ≤ 2 ^ 44) ∧ FitsL l) by rw [Item.Fits]]
      simp only [hl, or_true, true_and]
      exact ih.map (by simp [Item.Means])
    · rw [if_pos (by omega)]
      exact .inl ⟨.panic, by simp, rfl, by simp [Item.Fits]; omega⟩
  | .map none l, hv, hp, f + 1, rest, hf => by
    simp only [Item.Valid] at hv
    simp only [Item.Plain] at hp
    have e : (Item.map none l).encoded = 0xbf :: (encodedM l ++ [0xff]) := rfl
    rw [e] at hf ⊢
    have : readValue (f + 1) (0xbf :: (encodedM l ++ [0xff]) ++ rest) = (readMap f (-1) [] (encodedM l ++ 0xff :: rest)).map Val.obj := by
      rw [List.cons_append, List.append_assoc, readValue]; rfl
    rw [this, show (Item.map none l).Fits = FitsM l by rw [Item.Fits]]
    rcases read_members l hv.2.2.2 hp hv.2.2.1 f (-1) [] (0xff :: rest) rest (.inr ⟨rfl, rfl⟩) (by simp at hf; omega) (by simp [KeysSorted]) (by simp [mapGet]) with
      ⟨er, h1, h2, h3⟩ | ⟨m, h1, h2, h3, h4, _⟩
    · exact .inl ⟨er, h1, by rw [h2]; rfl, h3⟩
    · exact .inr ⟨.obj m, by rw [h1]; rfl, by simp [Item.Means, h2, h3, h4]⟩
  | .map (some w) l, hv, hp, f + 1, rest, hf => by
    simp only [Item.Valid] at hv
    simp only [Item.Plain] at hp
    have hw : w.Holds l.length := hv.1 w rfl
    have e : (Item.map (some w) l).encoded = head 5 w l.length ++ encodedM l := rfl
    rw [e] at hf ⊢
    rw [List.append_assoc, head_eq, List.cons_append, show base 5 = 0xa0 from rfl, readValue_obj_head _ _ (info_lt hw)]
    have hg := getVarLen_head (major := 5) (by decide) hw (encodedM l ++ rest)
    rw [show base 5 = 0xa0 from rfl, toInt64_small hv.2.1] at hg
    rw [hg]
    simp only
    rw [show (Item.map (some w) l).Fits = FitsM l by rw [Item.Fits]]
    rcases read_members l hv.2.2.2 hp hv.2.2.1 f l.length [] rest rest (.inl ⟨rfl, rfl⟩) (by simp [head] at hf; omega) (by simp [KeysSorted]) (by simp [mapGet]) with
      ⟨er, h1, h2, h3⟩ | ⟨m, h1, h2, h3, h4, _⟩
    · exact .inl ⟨er, h1, by rw [h2]; rfl, h3⟩
    · exact .inr ⟨.obj m, by rw [h1]; rfl, by simp [Item.Means, h2, h3, h4]⟩
  | .tag w n i, _, hp, _ + 1, _, _ => by simp [Item.Plain] at hp
  | .simple n, hv, hp, f + 1, rest, _ => by
    have hn : n < 24 := by simpa [Item.Plain] using hp
    rw [Item.encoded, if_pos hn, List.cons_append, List.nil_append, simple_read f n hn]
    refine .inr ⟨_, rfl, ?_⟩
    simp only [Item.Means, Item.Fits]
    split
    · subst_vars; simp
    · split
      · subst_vars; simp
      · simp; omega
  | .half n, hv, _, f + 1, rest, _ => by
    have e : readValue (f + 1) ((Item.half n).encoded ++ rest) = (readFloatBytes (2 : Nat) (toBE 2 n ++ rest)).map Val.f64 := by
      rw [Item.encoded, List.cons_append, readValue]; rfl
    rw [e, float_read 2 n (by decide) hv]
    exact .inr ⟨_, rfl, by simpa [Item.Means, Item.Fits] using short_float 5 10 n (.inl ⟨rfl, rfl, hv⟩)⟩
  | .single n, hv, _, f + 1, rest, _ => by
    have e : readValue (f + 1) ((Item.single n).encoded ++ rest) = (readFloatBytes (4 : Nat) (toBE 4 n ++ rest)).map Val.f64 := by
      rw [Item.encoded, List.cons_append, readValue]; rfl
    rw [e, float_read 4 n (by decide) hv]
    exact .inr ⟨_, rfl, by simpa [Item.Means, Item.Fits] using short_float 8 23 n (.inr ⟨rfl, rfl, hv⟩)⟩
  | .double n, hv, _, f + 1, rest, _ => by
    have e : readValue (f + 1) ((Item.double n).encoded ++ rest) = (readFloatBytes (8 : Nat) (toBE 8 n ++ rest)).map Val.f64 := by
      rw [Item.encoded, List.cons_append, readValue]; rfl
    rw [e, float_read 8 n (by decide) hv]
    exact .inr ⟨_, rfl, by simp [Item.Means, Item.Fits]⟩
theorem read_items : ∀ (l : List Item), ValidL l → PlainL l → ∀ (f : Nat) (len : Int) (tail rest : Bytes), Ends len l.length tail rest →
    2 * (encodedL l).length + 2 ≤ f → Outcome (readArray f len (encodedL l ++ tail)) (MeansL l) (FitsL l) rest
  | _, _, _, 0, _, _, _, _, h => by omega
  | [], _, _, f + 1, len, tail, rest, he, _ => by
    refine .inr ⟨[], ?_, by simp [MeansL, FitsL]⟩
    rcases he with ⟨rfl, rfl⟩ | ⟨rfl, rfl⟩
    · simp [readArray, encodedL]
    · simp [readArray, encodedL, readBreak]
  | i :: l, hv, hp, f + 1, len, tail, rest, he, hf => by
    simp only [ValidL] at hv
    simp only [PlainL] at hp
    have hpos := encoded_pos i
    simp only [encodedL, List.length_append] at hf
    simp only [encodedL, List.append_assoc]
    have hb : (if len = -1 then readBreak (i.encoded ++ (encodedL l ++ tail)) else none) = none := by
      split
      · exact encoded_break i hv.1 _
      · rfl
    have h0 : len ≠ 0 := by rcases he with ⟨rfl, _⟩ | ⟨rfl, _⟩ <;> simp; omega
    rw [readArray, if_neg h0, hb]
    simp only
    have he' : Ends (if 0 < len then len - 1 else len) l.length tail rest := by
      rcases he with ⟨rfl, h⟩ | ⟨rfl, h⟩
      · exact .inl ⟨by simp, h⟩
      · exact .inr ⟨by simp, h⟩
    rcases read_item i hv.1 hp.1 f (encodedL l ++ tail) (by omega) with ⟨e, h1, h2, h3⟩ | ⟨v, h1, h2⟩
    · rw [h2]
      exact .inl ⟨e, h1, rfl, fun h => h3 h.1⟩
    · rw [h1]
      simp only
      rcases read_items l hv.2 hp.2 f _ tail rest he' (by omega) with ⟨e, i1, i2, i3⟩ | ⟨vs, i1, i2⟩
      · rw [i2]
        exact .inl ⟨e, i1, rfl, fun h => i3 h.2⟩
      · rw [i1]
        refine .inr ⟨v :: vs, rfl, ?_⟩
        simp only [MeansL, FitsL, ← h2, ← i2]
        constructor
        · rintro ⟨v', vs', e, a, b⟩
          cases e
          exact ⟨a, b⟩
        · rintro ⟨a, b⟩
          exact ⟨v, vs, rfl, a, b⟩
theorem read_members : ∀ (l : List (Item × Item)), ValidM l → PlainM l → l.Pairwise (fun a b => a.1.key = none ∨ a.1.key ≠ b.1.key) →
    ∀ (f : Nat) (len : Int) (acc : List (Bytes × Val)) (tail rest : Bytes), Ends len l.length tail rest → 2 * (encodedM l).length + 2 ≤ f → KeysSorted acc →
    (∀ x ∈ l, ∀ k, x.1.key = some k → mapGet acc k = none) →
    (∃ e, e ≠ Err.eof ∧ readMap f len acc (encodedM l ++ tail) = .err e ∧ ¬ FitsM l) ∨
    (∃ m, readMap f len acc (encodedM l ++ tail) = .ok m rest ∧ (MeansM l m ↔ FitsM l) ∧ KeysSorted m ∧ m.length = acc.length + l.length ∧
      ∀ k, (∀ x ∈ l, x.1.key ≠ some k) → mapGet m k = mapGet acc k)
  | _, _, _, _, 0, _, _, _, _, _, h, _, _ => by omega
  | [], _, _, _, f + 1, len, acc, tail, rest, he, _, hs, _ => by
    refine .inr ⟨acc, ?_, by simp [MeansM, FitsM], hs, by simp, fun _ _ => rfl⟩
    rcases he with ⟨rfl, rfl⟩ | ⟨rfl, rfl⟩
    · simp [readMap, encodedM]
    · simp [readMap, encodedM, readBreak]
  | (k, i) :: l, hv, hp, hd, f + 1, len, acc, tail, rest, he, hf, hs, ha => by
    simp only [ValidM] at hv
    simp only [PlainM] at hp
    have hpos := encoded_pos k
    simp only [encodedM, List.length_append] at hf
    simp only [encodedM, List.append_assoc]
    have h0 : len ≠ 0 := by rcases he with ⟨rfl, _⟩ | ⟨rfl, _⟩ <;> simp; omega
    have hkey := key_read k hv.1 (i.encoded ++ (encodedM l ++ tail))
    have hb : (if len = -1 then readBreak (k.encoded ++ (i.encoded ++ (encodedM l ++ tail))) else none) = none := by
      split
      · exact encoded_break k hv.1 _
      · rfl
    rw [readMap, if_neg h0, hb]
    simp only
    have he' : Ends (if 0 < len then len - 1 else len) l.length tail rest := by
      rcases he with ⟨rfl, h⟩ | ⟨rfl, h⟩
      · exact .inl ⟨by simp, h⟩
      · exact .inr ⟨by simp, h⟩
    rcases hkey with ⟨w, s, rfl, h1, h2⟩ | ⟨h1, e, h2, h3⟩
    · rw [h2]
      simp only
      rcases read_item i hv.2.1 hp.1 f (encodedM l ++ tail) (by omega) with ⟨e, i1, i2, i3⟩ | ⟨v, i1, i2⟩
      · rw [i2]
        exact .inl ⟨e, i1, rfl, fun h => i3 h.2.1⟩
      · rw [i1]
        simp only
        have hns : mapGet acc s = none := ha _ (List.mem_cons_self ..) s rfl
        have hd' := List.pairwise_cons.1 hd
        have hnl : ∀ x ∈ l, x.1.key ≠ some s := by
          intro x hx h
          rcases hd'.1 x hx with h' | h'
          · simp [Item.key] at h'
          · exact h' (by rw [h]; rfl)
        have ha' : ∀ x ∈ l, ∀ k, x.1.key = some k → mapGet (mapSet acc s v) k = none := by
          intro x hx k hk
          rw [mapGet_mapSet_ne _ _ (by rintro rfl; exact hnl x hx hk)]
          exact ha x (List.mem_cons_of_mem _ hx) k hk
        rcases read_members l hv.2.2 hp.2 hd'.2 f _ (mapSet acc s v) tail rest he' (by omega) (keysSorted_mapSet s v hs) ha' with
          ⟨e, j1, j2, j3⟩ | ⟨m, j1, j2, j3, j4, j5⟩
        · exact .inl ⟨e, j1, j2, fun h => j3 h.2.2⟩
        · refine .inr ⟨m, j1, ?_, j3, ?_, ?_⟩
          · have hg : mapGet m s = some v := by rw [j5 s hnl, mapGet_mapSet_self]
            simp only [MeansM, FitsM, ← i2, ← j2]
            constructor
            · rintro ⟨⟨k', v', a, b, c⟩, d⟩
              cases a
              rw [hg] at b
              cases b
              exact ⟨⟨w, s, rfl, h1⟩, c, d⟩
            · rintro ⟨_, c, d⟩
              exact ⟨⟨s, v, rfl, hg, c⟩, d⟩
          · rw [j4, (mapSet_perm (map_get_none.1 hns)).length_eq]
            simp; omega
          · intro k hk
            rw [j5 k fun x hx => hk x (List.mem_cons_of_mem _ hx), mapGet_mapSet_ne]
            rintro rfl
            exact hk _ (List.mem_cons_self ..) rfl
    · rw [h3]
      exact .inl ⟨e, h2, rfl, fun h => h1 h.1⟩
end


/-! ### single items -/

/-- **C87**: of valid items without tags and two-byte simple values, in whatever encoding, the reader reads exactly those that fit as what they stand for, and goes
on after them. -/
theorem C87_item (i : Item) (hv : i.Valid) (hp : i.Plain) (rest : Bytes) :
    (∃ v, readValue (fuelFor (i.encoded ++ rest)) (i.encoded ++ rest) = .ok v rest ∧ i.Means v) ↔ i.Fits := by
  rcases read_item i hv hp (fuelFor (i.encoded ++ rest)) rest (by simp [fuelFor]; omega) with ⟨e, _, h2, h3⟩ | ⟨v, h1, h2⟩
  · rw [h2]
    simp [h3]
  · rw [h1]
    constructor
    · rintro ⟨v', h, hm⟩
      cases h
      exact h2.1 hm
    · exact fun h => ⟨v, rfl, h2.2 h⟩

/-- **C87**: where the reader goes on does not depend on that: after one of these items it is at its end, or it has reported an error other than the end. -/
theorem C87_aligned (i : Item) (hv : i.Valid) (hp : i.Plain) (rest : Bytes) :
    (∃ v, readValue (fuelFor (i.encoded ++ rest)) (i.encoded ++ rest) = .ok v rest) ∨
    (∃ e, e ≠ Err.eof ∧ readValue (fuelFor (i.encoded ++ rest)) (i.encoded ++ rest) = .err e ∧ ¬ i.Fits) := by
  rcases read_item i hv hp (fuelFor (i.encoded ++ rest)) rest (by simp [fuelFor]; omega) with ⟨e, h1, h2, h3⟩ | ⟨v, h1, _⟩
  · exact .inr ⟨e, h1, h2, h3⟩
  · exact .inl ⟨v, h1⟩

/-- **C87**: a tag is read as null, and what follows its first byte (the rest of its number, if any, and the tagged item) as further items. -/
theorem C87_tag (w : Width) (n : Nat) (i : Item) (hv : (Item.tag w n i).Valid) (f : Nat) (rest : Bytes) :
    readValue (f + 1) ((Item.tag w n i).encoded ++ rest) = .ok .null (toBE w.size n ++ i.encoded ++ rest) := by
  have hw : w.info n < 28 := info_lt hv.1
  have key : ∀ k < 28, ∀ s, readValue (f + 1) ((base 6 + UInt8.ofNat k) :: s) = .ok .null s := by
    intro k hk s
    have : k = 0 ∨ k = 1 ∨ k = 2 ∨ k = 3 ∨ k = 4 ∨ k = 5 ∨ k = 6 ∨ k = 7 ∨ k = 8 ∨ k = 9 ∨ k = 10 ∨ k = 11 ∨ k = 12 ∨ k = 13 ∨ k = 14 ∨ k = 15 ∨ k = 16 ∨ k = 17 ∨
      k = 18 ∨ k = 19 ∨ k = 20 ∨ k = 21 ∨ k = 22 ∨ k = 23 ∨ k = 24 ∨ k = 25 ∨ k = 26 ∨ k = 27 := by omega
    rcases this with rfl | rfl | rfl | rfl | rfl | rfl | rfl | rfl | rfl | rfl | rfl | rfl | rfl | rfl | rfl | rfl | rfl | rfl | rfl | rfl | rfl | rfl | rfl | rfl | rfl | rfl | rfl | rfl
    all_goals rw [readValue]; rfl
  rw [Item.encoded, head_eq]
  simp only [List.cons_append, List.append_assoc]
  exact key _ hw _

/-- **C87**: the number of a two-byte simple value is read as a further item. -/
theorem C87_simple (n : Nat) (hn : ¬ n < 24) (f : Nat) (rest : Bytes) :
    readValue (f + 1) ((Item.simple n).encoded ++ rest) = .ok .null (UInt8.ofNat n :: rest) := by
  rw [Item.encoded, if_neg hn, List.cons_append, readValue]
  rfl

/-- **C87**: a float of 16 or 32 bits is read as its bits times 2^-1074, whatever number it stands for; so every one of them but zero is read as another number. -/
theorem C87_short_floats (i : Item) (n : Nat) (hi : i = .half n ∨ i = .single n) (hv : i.Valid) (f : Nat) (rest : Bytes) :
    ∃ x, readValue (f + 1) (i.encoded ++ rest) = .ok (.f64 x) rest ∧ FloatText.value x = n / 2 ^ 1074 ∧ (i.Means (.f64 x) ↔ n = 0) := by
  have hb : n < 2 ^ 32 := by
    rcases hi with rfl | rfl
    · have : n < 256 ^ 2 := hv
      omega
    · exact hv
  have hx : (UInt64.ofNat n).toNat = n := by simp; omega
  have hmag : f64Mag (UInt64.ofNat n) = n := by rw [f64Mag, hx]; omega
  have hval : FloatText.value (UInt64.ofNat n) = (n : ℚ) / 2 ^ 1074 := by
    have hneg : Ieee.isNeg (UInt64.ofNat n) = false := by unfold Ieee.isNeg; rw [hx]; simp; omega
    unfold FloatText.value Ieee.val
    rw [if_neg (by rw [hneg]; decide), hmag]
    unfold Ieee.magVal
    rw [if_pos (by omega : n < 2 ^ 53), Int.cast_natCast]
  refine ⟨UInt64.ofNat n, ?_, hval, ?_⟩
  · rcases hi with rfl | rfl
    · have e : readValue (f + 1) ((Item.half n).encoded ++ rest) = (readFloatBytes (2 : Nat) (toBE 2 n ++ rest)).map Val.f64 := by
        rw [Item.encoded, List.cons_append, readValue]; rfl
      rw [e, float_read 2 n (by decide) hv]
      rfl
    · have e : readValue (f + 1) ((Item.single n).encoded ++ rest) = (readFloatBytes (4 : Nat) (toBE 4 n ++ rest)).map Val.f64 := by
        rw [Item.encoded, List.cons_append, readValue]; rfl
      rw [e, float_read 4 n (by decide) hv]
      rfl
  · rcases hi with rfl | rfl
    · simpa [Item.Means] using short_float 5 10 n (.inl ⟨rfl, rfl, hv⟩)
    · simpa [Item.Means] using short_float 8 23 n (.inr ⟨rfl, rfl, hv⟩)

/-! ### bodies -/

/-- the end of a body -/
def BodyEnd (len : Int) (tail : Bytes) : Prop := len ≠ -1 ∧ tail = [] ∨ len = -1 ∧ tail = [0xff]

theorem fuel_item (i : Item) (r : Bytes) : 2 * i.encoded.length + 1 ≤ fuelFor (i.encoded ++ r) := by simp [fuelFor]; omega

theorem array_loop (l : List Item) (hv : ValidL l) (hp : PlainL l) (f n : Nat) (len : Int) (tail : Bytes) (he : BodyEnd len tail) (hf : (encodedL l).length < f) :
    ∃ vs e, bodyLoop .array f { rowsRead := n, length := len, inp := encodedL l ++ tail } = (indexed n vs, e) ∧ (e = .eof ∧ MeansL l vs ↔ FitsL l) := by
  induction l generalizing f n with
  | nil =>
    cases f with
    | zero => omega
    | succ f =>
      refine ⟨[], .eof, ?_, by simp [MeansL, FitsL]⟩
      rcases he with ⟨h, rfl⟩ | ⟨rfl, rfl⟩
      · simp [bodyLoop, readBody, h, readValue, fuelFor, encodedL, indexed]
      · simp [bodyLoop, readBody, encodedL, readBreak, indexed]
  | cons i l ih =>
    simp only [ValidL] at hv
    simp only [PlainL] at hp
    have hpos := encoded_pos i
    simp only [encodedL, List.length_append] at hf
    simp only [encodedL, List.append_assoc]
    cases f with
    | zero => omega
    | succ f =>
      have hb : (if len = -1 then readBreak (i.encoded ++ (encodedL l ++ tail)) else none) = none := by
        split
        · exact encoded_break i hv.1 _
        · rfl
      rw [bodyLoop, readBody]
      simp only [hb]
      rcases read_item i hv.1 hp.1 _ (encodedL l ++ tail) (fuel_item i _) with ⟨e, h1, h2, h3⟩ | ⟨v, h1, h2⟩
      · rw [h2]
        exact ⟨[], e, rfl, by simp [MeansL, FitsL, h1, h3]⟩
      · rw [h1]
        simp only
        obtain ⟨vs, e, i1, i2⟩ := ih hv.2 hp.2 f (n + 1) (by omega)
        rw [i1]
        refine ⟨v :: vs, e, rfl, ?_⟩
        simp only [MeansL, FitsL, ← h2, ← i2]
        constructor
        · rintro ⟨a, v', vs', b, c, d⟩
          cases b
          exact ⟨c, a, d⟩
        · rintro ⟨c, a, d⟩
          exact ⟨a, v, vs, rfl, c, d⟩

/-- the members of an object body in their order -/
def MeansMembers : List (Item × Item) → List (Bytes × Val) → Prop
  | [], kvs => kvs = []
  | (k, i) :: l, kvs => ∃ k' v kvs', kvs = (k', v) :: kvs' ∧ k.key = some k' ∧ i.Means v ∧ MeansMembers l kvs'

theorem object_loop (l : List (Item × Item)) (hv : ValidM l) (hp : PlainM l) (f n : Nat) (len : Int) (tail : Bytes) (he : BodyEnd len tail) (hf : (encodedM l).length < f) :
    ∃ kvs e, bodyLoop .object f { rowsRead := n, length := len, inp := encodedM l ++ tail } = (keyed kvs, e) ∧ (e = .eof ∧ MeansMembers l kvs ↔ FitsM l) := by
  induction l generalizing f n with
  | nil =>
    cases f with
    | zero => omega
    | succ f =>
      refine ⟨[], .eof, ?_, by simp [MeansMembers, FitsM]⟩
      rcases he with ⟨h, rfl⟩ | ⟨rfl, rfl⟩
      · simp [bodyLoop, readBody, h, readStringKey, encodedM, keyed]
      · simp [bodyLoop, readBody, encodedM, readBreak, keyed]
  | cons x l ih =>
    obtain ⟨k, i⟩ := x
    simp only [ValidM] at hv
    simp only [PlainM] at hp
    have hpos := encoded_pos k
    simp only [encodedM, List.length_append] at hf
    simp only [encodedM, List.append_assoc]
    cases f with
    | zero => omega
    | succ f =>
      have hb : (if len = -1 then readBreak (k.encoded ++ (i.encoded ++ (encodedM l ++ tail))) else none) = none := by
        split
        · exact encoded_break k hv.1 _
        · rfl
      rw [bodyLoop, readBody]
      simp only [hb]
      rcases key_read k hv.1 (i.encoded ++ (encodedM l ++ tail)) with ⟨w, s, rfl, h1, h2⟩ | ⟨h1, e, h2, h3⟩
      · rw [h2]
        simp only
        rcases read_item i hv.2.1 hp.1 _ (encodedM l ++ tail) (fuel_item i _) with ⟨e, i1, i2, i3⟩ | ⟨v, i1, i2⟩
        · rw [i2]
          exact ⟨[], e, rfl, by simp [i1]; intro h; exact i3 h.2.1⟩
        · rw [i1]
          simp only
          obtain ⟨kvs, e, j1, j2⟩ := ih hv.2.2 hp.2 f (n + 1) (by omega)
          rw [j1]
          refine ⟨(s, v) :: kvs, e, rfl, ?_⟩
          simp only [MeansMembers, FitsM, ← i2, ← j2]
          constructor
          · rintro ⟨a, k', v', kvs', b, _, c, d⟩
            cases b
            exact ⟨⟨w, s, rfl, h1⟩, c, a, d⟩
          · rintro ⟨_, c, a, d⟩
            exact ⟨a, s, v, kvs, rfl, rfl, c, d⟩
      · rw [h3]
        exact ⟨[], e, rfl, by simp [h2]; intro h; exact h1 h.1⟩

theorem top_head (major : Nat) (hm : major = 4 ∨ major = 5) (w : Width) (n : Nat) (hw : w.Holds n) (hn : n < 2 ^ 63) (r : Bytes) :
    readTopLevel (head major w n ++ r) = .ok (base major, n) r := by
  have hm' : major < 6 := by omega
  obtain ⟨h1, h2, _⟩ := head_and _ (base_isBase hm') _ (info_lt hw)
  have hg := getVarLen_head hm' hw r
  rw [toInt64_small hn] at hg
  have hi := info_lt hw
  have hne : ¬ UInt8.ofNat (w.info n) = 0x1f := by
    intro e
    have := congrArg UInt8.toNat e
    simp at this
    omega
  rw [head_eq, List.cons_append]
  unfold readTopLevel
  simp only [h1, h2]
  rw [if_neg (by rcases hm with rfl | rfl <;> decide), if_neg hne, hg]

/-- **C87**: an array body in any valid encoding, without tags and two-byte simple values, reads as the values its items stand for, numbered in order, up to the end,
exactly if all items fit. -/
theorem C87_array (w : Option Width) (l : List Item) (hv : (Item.arr w l).Valid) (hp : PlainL l) :
    (∃ vs, readAll .array (Item.arr w l).encoded = (indexed 0 vs, .eof) ∧ MeansL l vs) ↔ FitsL l := by
  simp only [Item.Valid] at hv
  have main : ∃ vs e, readAll .array (Item.arr w l).encoded = (indexed 0 vs, e) ∧ (e = .eof ∧ MeansL l vs ↔ FitsL l) := by
    rw [readAll, readLoop_fresh _ _ _ rfl]
    cases w with
    | none =>
      have e : (Item.arr none l).encoded = 0x9f :: (encodedL l ++ [0xff]) := rfl
      rw [e]
      have hst : start .array { inp := 0x9f :: (encodedL l ++ [0xff]) } = .ok { length := -1, inp := encodedL l ++ [0xff] } := rfl
      rw [hst]
      exact array_loop l hv.2.2 hp _ 0 _ _ (.inr ⟨rfl, rfl⟩) (by simp; omega)
    | some w =>
      have e : (Item.arr (some w) l).encoded = head 4 w l.length ++ encodedL l := rfl
      rw [e]
      have hst : start .array { inp := head 4 w l.length ++ encodedL l } = .ok { length := l.length, inp := encodedL l } := by
        simp [start, top_head 4 (.inl rfl) w _ (hv.1 w rfl) hv.2.1, topByte, base]
      rw [hst]
      have := array_loop l hv.2.2 hp ((head 4 w l.length ++ encodedL l).length + 1) 0 l.length [] (.inl ⟨by omega, rfl⟩) (by simp; omega)
      rwa [List.append_nil] at this
  obtain ⟨vs, e, h1, h2⟩ := main
  rw [h1, ← h2]
  constructor
  · rintro ⟨vs', h, hm⟩
    simp only [Prod.mk.injEq] at h
    refine ⟨h.2, ?_⟩
    have hinj : ∀ (n : Nat) (a b : List Val), indexed n a = indexed n b → a = b := by
      intro n a b h
      have hval : ∀ (n : Nat) (a : List Val), (indexed n a).map (·.value) = a := by
        intro n a
        induction a generalizing n with
        | nil => rfl
        | cons v t ih => simp [indexed, ih]
      rw [← hval n a, h, hval]
    rw [hinj 0 _ _ h.1]
    exact hm
  · rintro ⟨rfl, hm⟩
    exact ⟨vs, rfl, hm⟩

/-- **C87**: an object body likewise, member by member in the order of the body. -/
theorem C87_object (w : Option Width) (l : List (Item × Item)) (hv : (Item.map w l).Valid) (hp : PlainM l) :
    (∃ kvs, readAll .object (Item.map w l).encoded = (keyed kvs, .eof) ∧ MeansMembers l kvs) ↔ FitsM l := by
  simp only [Item.Valid] at hv
  have main : ∃ kvs e, readAll .object (Item.map w l).encoded = (keyed kvs, e) ∧ (e = .eof ∧ MeansMembers l kvs ↔ FitsM l) := by
    rw [readAll, readLoop_fresh _ _ _ rfl]
    cases w with
    | none =>
      have e : (Item.map none l).encoded = 0xbf :: (encodedM l ++ [0xff]) := rfl
      rw [e]
      have hst : start .object { inp := 0xbf :: (encodedM l ++ [0xff]) } = .ok { length := -1, inp := encodedM l ++ [0xff] } := rfl
      rw [hst]
      exact object_loop l hv.2.2.2 hp _ 0 _ _ (.inr ⟨rfl, rfl⟩) (by simp; omega)
    | some w =>
      have e : (Item.map (some w) l).encoded = head 5 w l.length ++ encodedM l := rfl
      rw [e]
      have hst : start .object { inp := head 5 w l.length ++ encodedM l } = .ok { length := l.length, inp := encodedM l } := by
        simp [start, top_head 5 (.inr rfl) w _ (hv.1 w rfl) hv.2.1, topByte, base]
      rw [hst]
      have := object_loop l hv.2.2.2 hp ((head 5 w l.length ++ encodedM l).length + 1) 0 l.length [] (.inl ⟨by omega, rfl⟩) (by simp; omega)
      rwa [List.append_nil] at this
  obtain ⟨kvs, e, h1, h2⟩ := main
  rw [h1, ← h2]
  constructor
  · rintro ⟨kvs', h, hm⟩
    simp only [Prod.mk.injEq] at h
    refine ⟨h.2, ?_⟩
    have hinj : kvs = kvs' := by
      have := congrArg (List.map fun e : Entry => (e.key, e.value)) h.1
      simpa [keyed, List.map_map, Function.comp_def] using this
    rw [hinj]
    exact hm
  · rintro ⟨rfl, hm⟩
    exact ⟨kvs, rfl, hm⟩

end Verif.CborItem
