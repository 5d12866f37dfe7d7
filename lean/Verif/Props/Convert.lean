import Verif.Props.Streams
/-
C14 and C53: converting a body from one format to another.
-/
set_option autoImplicit false
namespace Verif.Streams

/-! ## C14 – converting -/

/-- When the reader reaches end-of-file and the writer takes everything, the converted file is what
the writer makes of exactly those entries; … -/
theorem C14_complete {σ τ : Type} (rd : Reader σ) (w : Writer τ) (close : τ → Option Bytes) (limit offset : Int) (s s' : σ) (t t' : τ)
    (es : List Entry) (hd : Drains rd s es .eof s') (ha : Accepts w t es t') :
    ∃ n, convert rd w close limit offset true n s t = some (close t') := by
  obtain ⟨n, h⟩ := (C13_copy_ok_iff rd w s s' t t').mpr ⟨es, hd, ha⟩
  exact ⟨n, by simp [convert, h]⟩

/-- … with a window selected, of the entries in the window; … -/
theorem C14_window {σ τ : Type} (rd : Reader σ) (w : Writer τ) (close : τ → Option Bytes) (limit offset : Nat) (s s' : σ) (t t' : τ)
    (es : List Entry) (x : RErr) (hd : Drains rd s es x s') (hx : es.length < offset + limit → x = .eof)
    (ha : Accepts w t ((es.drop offset).take limit) t') :
    ∃ n, convert rd w close limit offset false n s t = some (close t') := by
  have key : ∃ p, Drains (paged rd) ⟨offset, limit, s⟩ ((es.drop offset).take limit) .eof p := by
    by_cases hl : es.length < offset + limit
    · obtain ⟨p, hp, _⟩ := C12_partial_page rd s s' es x offset limit hd (.inr (by omega))
      rw [List.take_of_length_le (by simp; omega)]
      rw [hx hl] at hp
      exact ⟨p, hp⟩
    · obtain ⟨m, hy, _⟩ := hd
      obtain ⟨s₁, h1, _⟩ := (show Yields rd s (es.take (offset + limit) ++ es.drop (offset + limit)) m by rw [List.take_append_drop]; exact hy).split
      have := C12_full_page rd s s₁ (es.take (offset + limit)) offset limit h1 (by simp; omega)
      rw [List.drop_take, Nat.add_sub_cancel_left] at this
      exact ⟨_, this⟩
  obtain ⟨p, hp⟩ := key
  obtain ⟨n, h⟩ := (C13_copy_ok_iff (paged rd) w _ p t t').mpr ⟨_, hp, ha⟩
  exact ⟨n, by simp [convert, h]⟩

/-- … but a read error is dropped: the entries before it are returned as if they were all there were; … -/
theorem C14_read_error_dropped {σ τ : Type} (rd : Reader σ) (w : Writer τ) (close : τ → Option Bytes) (limit offset : Int) (s s' : σ) (t t' : τ)
    (es : List Entry) (x : Bytes) (hd : Drains rd s es (.other x) s') (ha : Accepts w t es t') :
    ∃ n, convert rd w close limit offset true n s t = some (close t') := by
  obtain ⟨n, h⟩ := (C13_copy_readErr_iff rd w s s' t t' x).mpr ⟨es, hd, ha⟩
  exact ⟨n, by simp [convert, h]⟩

/-- … and so is a write error. -/
theorem C14_write_error_dropped {σ τ : Type} (rd : Reader σ) (w : Writer τ) (close : τ → Option Bytes) (limit offset : Int) (s s' : σ) (t t₁ t' : τ)
    (es : List Entry) (e : Entry) (x : Bytes) (hd : Yields rd s (es ++ [e]) s') (ha : Accepts w t es t₁) (hw : w e t₁ = (some x, t')) :
    ∃ n, convert rd w close limit offset true n s t = some (close t') := by
  obtain ⟨n, h⟩ := (C13_copy_writeErr_iff rd w s s' t t' x).mpr ⟨es, e, t₁, hd, ha, hw⟩
  exact ⟨n, by simp [convert, h]⟩

/-- The only reported failure is that of closing. -/
theorem C14_fails_only_on_close {σ τ : Type} (rd : Reader σ) (w : Writer τ) (close : τ → Option Bytes) (hc : ∀ t, (close t).isSome)
    (limit offset : Int) (all : Bool) (n : Nat) (s : σ) (t : τ) (r : Option Bytes) (h : convert rd w close limit offset all n s t = some r) :
    r.isSome := by
  unfold convert at h
  split at h <;>
    (rw [Option.map_eq_some_iff] at h; obtain ⟨a, _, rfl⟩ := h; exact hc _)

/-- The claim "success only if the whole input was converted" is false: a damaged JSON body converts to
a CBOR body of the entries before the damage. -/
theorem C14_false_witness :
    convert (jsonReader Json.exF .array) (cborWriter .array) (fun t => some (Cbor.close .array t)) 0 0 true 9 { rest := b!"[1,2,nope,4]" } {}
      = some (some [0x82, 0x01, 0x02]) := by decide +kernel

example : convert (jsonReader Json.exF .array) (cborWriter .array) (fun t => some (Cbor.close .array t)) 2 1 false 9 { rest := b!"[1,2,3,4]" } {}
    = some (some [0x82, 0x02, 0x03]) := by decide +kernel

/-! ## C53 – conversion between JSON and CBOR -/

theorem json_drains (F : FloatCodec) (tl : TopLevel) (n : Nat) (st : Json.RState) (es : List Entry) (h : Json.readLoop F tl n st = (es, .eof)) :
    ∃ st', Drains (jsonReader F tl) st es .eof st' := by
  induction n generalizing st es with
  | zero => simp [Json.readLoop] at h
  | succ n ih =>
    unfold Json.readLoop at h
    split at h
    · rename_i st' he
      simp only [Prod.mk.injEq, and_true] at h
      subst h
      exact ⟨st', st, .nil _, by simp [jsonReader, he]⟩
    · simp at h
    · rename_i e st₁ he
      simp only [Prod.mk.injEq] at h
      obtain ⟨rfl, h2⟩ := h
      obtain ⟨st', m, a, b⟩ := ih st₁ _ (Prod.ext rfl h2)
      exact ⟨st', m, .cons (by simp [jsonReader, he]) a, b⟩

theorem cbor_drains (tl : TopLevel) (n : Nat) (st : Cbor.Reader) (es : List Entry) (h : Cbor.readLoop tl n st = (es, .eof)) :
    ∃ st', Drains (cborReader tl) st es .eof st' := by
  induction n generalizing st es with
  | zero => simp [Cbor.readLoop] at h
  | succ n ih =>
    unfold Cbor.readLoop at h
    split at h
    · rename_i e he
      simp only [Prod.mk.injEq] at h
      obtain ⟨rfl, rfl⟩ := h
      exact ⟨st, st, .nil _, by simp [cborReader, he]⟩
    · rename_i e st₁ he
      simp only [Prod.mk.injEq] at h
      obtain ⟨rfl, h2⟩ := h
      obtain ⟨st', m, a, b⟩ := ih st₁ _ (Prod.ext rfl h2)
      exact ⟨st', m, .cons (by simp [cborReader, he]) a, b⟩

theorem json_accepts (F : FloatCodec) (tl : TopLevel) (indent : Bytes) (es : List Entry) (w : Json.WState)
    (h : ∀ r ∈ (Json.writeLoop F tl indent es w).1, r = .ok ()) : Accepts (jsonWriter F tl indent) w es (Json.writeLoop F tl indent es w).2 := by
  induction es generalizing w with
  | nil => exact .nil w
  | cons e es ih =>
    simp only [Json.writeLoop, List.mem_cons, forall_eq_or_imp] at h ⊢
    refine .cons ?_ (ih _ h.2)
    unfold jsonWriter
    cases hw : Json.writeEntry F tl indent e w with
    | mk a b => rw [hw] at h; simp only at h; rw [h.1]

theorem cbor_accepts_array (es : List Entry) (w : Cbor.Writer) :
    Accepts (cborWriter .array) w es (es.foldl (fun w e => (Cbor.writeEntry .array w e).1) w) := by
  induction es generalizing w with
  | nil => exact .nil w
  | cons e es ih => exact .cons rfl (ih _)

theorem cbor_accepts_object (es : List Entry) (w : Cbor.Writer) (hk : ∀ e ∈ es, e.key ≠ []) (hn : (es.map (·.key)).Nodup)
    (hw : ∀ e ∈ es, mapGet w.obj e.key = none) :
    Accepts (cborWriter .object) w es (es.foldl (fun w e => (Cbor.writeEntry .object w e).1) w) := by
  induction es generalizing w with
  | nil => exact .nil w
  | cons e es ih =>
    have h1 := hk e (by simp)
    have h2 := hw e (by simp)
    have he : Cbor.writeEntry .object w e = ({ w with obj := mapSet w.obj e.key e.value }, true) := by
      simp [Cbor.writeEntry, h1, h2]
    simp only [List.map_cons, List.nodup_cons] at hn
    refine .cons (t₁ := (Cbor.writeEntry .object w e).1) (by simp [cborWriter, he]) ?_
    refine ih _ (fun x hx => hk x (by simp [hx])) hn.2 ?_
    intro x hx
    rw [he, mapGet_mapSet_ne]
    · exact hw x (by simp [hx])
    · intro hxe; exact hn.1 (List.mem_map.mpr ⟨x, hx, hxe⟩)

/-- a body of this format -/
def jsonToCbor (F : FloatCodec) (tl : TopLevel) (n : Nat) (body : Bytes) : Option (Option Bytes) :=
  convert (jsonReader F tl) (cborWriter tl) (fun t => some (Cbor.close tl t)) 0 0 true n { rest := body } {}

def cborToJson (F : FloatCodec) (tl : TopLevel) (indent : Bytes) (n : Nat) (body : Bytes) : Option (Option Bytes) :=
  convert (cborReader tl) (jsonWriter F tl indent) (fun t => some (Json.close tl indent t)) 0 0 true n { inp := body } {}

theorem map_value_indexed (n : Int) (l : List Val) : (Json.indexed n l).map (·.value) = l := by
  induction l generalizing n with
  | nil => rfl
  | cons v l ih => simp [Json.indexed, ih]

theorem indexed_eq (n : Nat) (l : List Val) : Cbor.indexed n l = Json.indexed n l := by
  induction l generalizing n with
  | nil => rfl
  | cons v l ih =>
    have := ih (n + 1)
    rw [Cbor.indexed, Json.indexed, this]; rfl

/-- A JSON array written by the JSON writer, converted to CBOR, reads back as the same values; … -/
theorem C53_json_to_cbor_array (F : FloatCodec) (indent : Bytes) (hi : JsonG.WS indent) (es : List Entry) (hj : ∀ e ∈ es, Json.Supported F e.value)
    (hc : ∀ e ∈ es, Cbor.Supported e.value) (hl : es.length < 2^63) :
    ∃ n out, jsonToCbor F .array n (Json.writeAll F .array indent es).2 = some (some out) ∧
      Cbor.readAll .array out = (Json.indexed 0 (es.map (·.value)), .eof) := by
  have h1 := (Json.C16_array_roundtrip F indent hi es hj).2
  obtain ⟨st', hd⟩ := json_drains F .array _ _ _ h1
  obtain ⟨n, h⟩ := C14_complete (jsonReader F .array) (cborWriter .array) (fun t => some (Cbor.close .array t)) 0 0 _ st' {} _ _ hd
    (cbor_accepts_array (Json.indexed 0 (es.map (·.value))) {})
  refine ⟨n, _, h, ?_⟩
  have h2 := Cbor.C20_array_roundtrip (Json.indexed 0 (es.map (·.value)))
    (by
      intro e he
      have : e.value ∈ (Json.indexed 0 (es.map (·.value))).map (·.value) := List.mem_map_of_mem he
      rw [map_value_indexed] at this
      obtain ⟨x, hx, hxe⟩ := List.mem_map.mp this
      rw [← hxe]; exact hc x hx)
    (by
      have := congrArg List.length (map_value_indexed 0 (es.map (·.value)))
      simp at this; omega)
  rw [map_value_indexed, indexed_eq] at h2
  exact h2

/-- … a CBOR array converted to JSON likewise; … -/
theorem C53_cbor_to_json_array (F : FloatCodec) (indent : Bytes) (hi : JsonG.WS indent) (es : List Entry) (hj : ∀ e ∈ es, Json.Supported F e.value)
    (hc : ∀ e ∈ es, Cbor.Supported e.value) (hl : es.length < 2^63) :
    ∃ n out, cborToJson F .array indent n (Cbor.writeAll .array es) = some (some out) ∧
      Json.readAll F .array out = (Json.indexed 0 (es.map (·.value)), .eof) := by
  have h1 := Cbor.C20_array_roundtrip es hc hl
  rw [indexed_eq, Int.cast_ofNat_Int] at h1
  obtain ⟨st', hd⟩ := cbor_drains .array _ _ _ h1
  have hj' : ∀ e ∈ Json.indexed 0 (es.map (·.value)), Json.Supported F e.value := by
    intro e he
    have : e.value ∈ (Json.indexed 0 (es.map (·.value))).map (·.value) := List.mem_map_of_mem he
    rw [map_value_indexed] at this
    obtain ⟨x, hx, hxe⟩ := List.mem_map.mp this
    rw [← hxe]; exact hj x hx
  have h2 := Json.C16_array_roundtrip F indent hi (Json.indexed 0 (es.map (·.value))) hj'
  obtain ⟨n, h⟩ := C14_complete (cborReader .array) (jsonWriter F .array indent) (fun t => some (Json.close .array indent t)) 0 0 _ st' {} _ _ hd
    (json_accepts F .array indent _ {} h2.1)
  refine ⟨n, _, h, ?_⟩
  have h3 := h2.2
  simp only [map_value_indexed] at h3
  exact h3

theorem keyed_eq (es : List Entry) : (Json.keyed (es.map fun e => (e.key, e.value))).map (fun e => (e.key, e.value)) = es.map fun e => (e.key, e.value) := by
  simp [Json.keyed, Function.comp_def]

/-- … a JSON object converted to CBOR keeps its members (in key order). -/
theorem C53_json_to_cbor_object (F : FloatCodec) (indent : Bytes) (hi : JsonG.WS indent) (es : List Entry) (hj : ∀ e ∈ es, Json.Supported F e.value)
    (hc : ∀ e ∈ es, Cbor.Supported e.value) (hk : ∀ e ∈ es, e.key ≠ [] ∧ ValidUtf8 e.key ∧ e.key.length ≤ 4096) (hn : (es.map (·.key)).Nodup)
    (hl : es.length < 2^63) :
    ∃ n out res, jsonToCbor F .object n (Json.writeAll F .object indent es).2 = some (some out) ∧
      Cbor.readAll .object out = (res, .eof) ∧ res.Pairwise (fun a b => bytesLt a.key b.key = true) ∧
      (res.map fun e => (e.key, e.value)).Perm (es.map fun e => (e.key, e.value)) := by
  have h1 := (Json.C16_object_roundtrip F indent hi es hj (fun e he => ⟨(hk e he).1, (hk e he).2.1⟩) hn).2
  obtain ⟨st', hd⟩ := json_drains F .object _ _ _ h1
  have hmem : ∀ e ∈ Json.keyed (es.map fun e => (e.key, e.value)), ∃ x ∈ es, e.key = x.key ∧ e.value = x.value := by
    intro e he
    simp only [Json.keyed, List.map_map, List.mem_map, Function.comp_apply] at he
    obtain ⟨x, hx, rfl⟩ := he
    exact ⟨x, hx, rfl, rfl⟩
  have hkeys : (Json.keyed (es.map fun e => (e.key, e.value))).map (·.key) = es.map (·.key) := by simp [Json.keyed, Function.comp_def]
  obtain ⟨n, h⟩ := C14_complete (jsonReader F .object) (cborWriter .object) (fun t => some (Cbor.close .object t)) 0 0 _ st' {} _ _ hd
    (cbor_accepts_object (Json.keyed (es.map fun e => (e.key, e.value))) {}
      (by intro e he; obtain ⟨x, hx, a, _⟩ := hmem e he; rw [a]; exact (hk x hx).1) (by rw [hkeys]; exact hn) (by intros; rfl))
  obtain ⟨res, h2, h3, h4⟩ := Cbor.C20_object_roundtrip (Json.keyed (es.map fun e => (e.key, e.value)))
    (by intro e he; obtain ⟨x, hx, _, b⟩ := hmem e he; rw [b]; exact hc x hx)
    (by intro e he; obtain ⟨x, hx, a, _⟩ := hmem e he; rw [a]; exact ⟨(hk x hx).1, (hk x hx).2.2⟩) (by rw [hkeys]; exact hn)
    (by simpa [Json.keyed] using hl)
  rw [keyed_eq] at h4
  exact ⟨n, _, res, h, h2, h3, h4⟩

example : jsonToCbor Json.exF .object 5 b!"{\"b\":[1,null],\"a\":\"x\"}" = some (some [0xa2, 0x61, 97, 0x61, 120, 0x61, 98, 0x82, 1, 0xf6]) := by decide +kernel
example : cborToJson Json.exF .array [] 5 [0x82, 1, 0xa1, 0x61, 97, 0xf5] = some (some b!"[1,{\"a\":true}]") := by decide +kernel

end Verif.Streams
