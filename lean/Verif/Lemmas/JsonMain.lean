import Verif.Lemmas.JsonTrunc
/- Last steps towards the JSON property theorems. -/
namespace Verif.Json
open JsonG

theorem accepted_all {ε : Type} (es : List Entry) :
    accepted es (es.map fun _ => (Except.ok () : Except ε Unit)) = es := by
  induction es with
  | nil => rfl
  | cons e es ih => simp only [accepted, List.map, List.zip_cons_cons, List.filter, List.map_cons] at *; rw [ih]

theorem writeLoop_array_ok (F : FloatCodec) (indent : Bytes) (es : List Entry) (h : ∀ e ∈ es, jsonOK e.value = true)
    (w : WState) : (writeLoop F .array indent es w).1 = es.map fun _ => .ok () := by
  induction es generalizing w with
  | nil => rfl
  | cons e es ih =>
    have he := h e (by simp)
    simp only [writeLoop, List.map]
    rw [ih (fun e' h' => h e' (by simp [h']))]
    simp [writeEntry, valBytes, he]

theorem writeLoop_object_ok (F : FloatCodec) (indent : Bytes) (es : List Entry) (h : ∀ e ∈ es, jsonOK e.value = true)
    (hk : ∀ e ∈ es, e.key ≠ []) (hnd : (es.map (·.key)).Nodup) (w : WState) (hw : ∀ e ∈ es, e.key ∉ w.keysWritten) :
    (writeLoop F .object indent es w).1 = es.map fun _ => .ok () := by
  induction es generalizing w with
  | nil => rfl
  | cons e es ih =>
    have he := h e (by simp)
    have hk' := hk e (by simp)
    have hw' := hw e (by simp)
    simp only [List.map, List.nodup_cons] at hnd
    have hstep : writeEntry F .object indent e w = (.ok (), (writeEntry F .object indent e w).2) ∧
        (writeEntry F .object indent e w).2.keysWritten = e.key :: w.keysWritten := by
      simp [writeEntry, valBytes, he, hk', hw']
    simp only [writeLoop, List.map]
    rw [ih (fun e' h' => h e' (by simp [h'])) (fun e' h' => hk e' (by simp [h'])) hnd.2]
    · rw [hstep.1]
    · intro e' h'
      rw [hstep.2]
      simp only [List.mem_cons, not_or]
      refine ⟨?_, hw e' (by simp [h'])⟩
      intro heq
      exact hnd.1 (heq ▸ List.mem_map_of_mem h')

/-- the container of the accepted entries -/
def denotes (F : FloatCodec) (tl : TopLevel) (es : List Entry) : Val :=
  match tl with
  | .array => .arr (normL F (es.map Entry.value))
  | .object => .obj (mapOf (normMembers F es))

theorem writeAll_array_elems {F : FloatCodec} {indent : Bytes} (hi : WS indent) (es : List Entry)
    (hW : ∀ e ∈ es, jsonOK e.value = true → Writable F e.value)
    (hfirst : ∀ x, (writeAll F .array indent es).1.head? ≠ some (.error x)) :
    (accepted es (writeAll F .array indent es).1 = [] ∧ (writeAll F .array indent es).2 = [91, 93]) ∨
    ∃ t, Elems F (normL F ((accepted es (writeAll F .array indent es).1).map Entry.value)) t ∧
      (writeAll F .array indent es).2 = 91 :: (t ++ [93]) := by
  rcases writeAll_text F .array indent es hfirst with ⟨h1, h2⟩ | ⟨e, acc, h1, h2, h3⟩
  · left; subst h1; exact ⟨rfl, h2⟩
  · right
    have hm : ∀ e' ∈ e :: acc, e' ∈ es := by
      intro e' he'
      rw [← h1, accepted] at he'
      simp only [List.mem_map, List.mem_filter] at he'
      obtain ⟨p, ⟨hp, _⟩, rfl⟩ := he'
      exact (List.of_mem_zip hp).1
    refine ⟨_, ?_, h3⟩
    rw [h1]
    exact arrayText_elems hi e acc fun e' he' => hW e' (hm e' he') (h2 e' he')

theorem writeAll_object_members {F : FloatCodec} {indent : Bytes} (hi : WS indent) (es : List Entry)
    (hW : ∀ e ∈ es, jsonOK e.value = true → Writable F e.value)
    (hfirst : ∀ x, (writeAll F .object indent es).1.head? ≠ some (.error x)) :
    (accepted es (writeAll F .object indent es).1 = [] ∧ (writeAll F .object indent es).2 = [123, 125]) ∨
    ∃ t, Members F (normMembers F (accepted es (writeAll F .object indent es).1)) t ∧
      (writeAll F .object indent es).2 = 123 :: (t ++ [125]) := by
  rcases writeAll_text F .object indent es hfirst with ⟨h1, h2⟩ | ⟨e, acc, h1, h2, h3⟩
  · left; subst h1; exact ⟨rfl, h2⟩
  · right
    have hm : ∀ e' ∈ e :: acc, e' ∈ es := by
      intro e' he'
      rw [← h1, accepted] at he'
      simp only [List.mem_map, List.mem_filter] at he'
      obtain ⟨p, ⟨hp, _⟩, rfl⟩ := he'
      exact (List.of_mem_zip hp).1
    refine ⟨_, ?_, h3⟩
    rw [h1]
    exact objectText_members hi e acc fun e' he' => hW e' (hm e' he') (h2 e' he')

theorem normL_supported {F : FloatCodec} {l : List Val} (h : ∀ v ∈ l, Supported F v) : normL F l = l := by
  induction l with
  | nil => simp [normL]
  | cons v l ih =>
    rw [normL, (writable_supported F v (h v (by simp))).2, ih fun v hv => h v (by simp [hv])]

/-- the first character of a value -/
theorem text_ne_comma {F : FloatCodec} {v : Val} {t : Bytes} (h : Text F v t) : ∃ c t', t = c :: t' ∧ c ≠ 44 := by
  have dig : ∀ {c : UInt8}, isDigit c = true → c ≠ 44 := by
    rintro c hc rfl; exact absurd hc (by decide)
  have int : ∀ {t : Bytes}, IntPart t → ∃ c t', t = c :: t' ∧ c ≠ 44 := by
    intro t h
    cases h with
    | zero => exact ⟨_, _, rfl, by decide⟩
    | nonzero c t h1 h2 h3 => exact ⟨_, _, rfl, dig h1⟩
  cases h with
  | nat t n h => exact int h
  | float t u x h => obtain ⟨c, t', rfl, h'⟩ := int h; exact ⟨_, _, rfl, h'⟩
  | _ => exact ⟨_, _, rfl, by decide⟩

/-- a text starting with an opening bracket and a comma is not JSON -/
theorem comma_not_doc (F : FloatCodec) (v : Val) (b : UInt8) (hb : b = 91 ∨ b = 123) (rest : Bytes) : ¬ Doc F v (b :: 44 :: rest) := by
  rintro ⟨w, t, w', hw, ht, hw', e⟩
  cases w with
  | cons c w =>
    simp only [List.cons_append, List.cons.injEq] at e
    have := hw c (by simp)
    rw [← e.1] at this; rcases hb with rfl | rfl <;> simp at this
  | nil =>
    rw [List.nil_append] at e
    obtain ⟨c, t', rfl, -⟩ := text_ne_comma ht
    simp only [List.cons_append, List.cons.injEq] at e
    obtain ⟨rfl, e⟩ := e
    have hnd : isDigit b = false := by rcases hb with rfl | rfl <;> rfl
    generalize hx : b :: t' = x at ht
    have fin : ∀ w1 c t1 z, WS w1 → c ≠ 44 → 44 :: rest = w1 ++ (c :: t1) ++ z → False := by
      intro w1 c t1 z h1 h2 h3
      cases w1 with
      | nil => simp at h3; exact h2 h3.1.symm
      | cons d w1 =>
        simp at h3
        have := h1 d (by simp)
        rw [← h3.1] at this; simp at this
    cases ht with
    | null => simp at hx; rw [hx.1] at hb; simp at hb
    | true => simp at hx; rw [hx.1] at hb; simp at hb
    | false => simp at hx; rw [hx.1] at hb; simp at hb
    | nat _ n h => cases h with
      | zero => simp at hx; rw [hx.1] at hb; simp at hb
      | nonzero c t h1 h2 h3 => simp at hx; rw [← hx.1, hnd] at h1; simp at h1
    | neg => simp at hx; rw [hx.1] at hb; simp at hb
    | float t u _ h => cases h with
      | zero => simp at hx; rw [hx.1] at hb; simp at hb
      | nonzero c t h1 h2 h3 => simp at hx; rw [← hx.1, hnd] at h1; simp at h1
    | negFloat => simp at hx; rw [hx.1] at hb; simp at hb
    | str => simp at hx; rw [hx.1] at hb; simp at hb
    | arr0 w1 h1 =>
      simp at hx; obtain ⟨_, rfl⟩ := hx
      exact fin w1 93 [] w' h1 (by decide) (by simpa using e)
    | arr l u h1 =>
      simp at hx; obtain ⟨_, rfl⟩ := hx
      have : ∃ w1 c t1, WS w1 ∧ c ≠ 44 ∧ u = w1 ++ (c :: t1) := by
        cases h1 with
        | one v w t w' hw ht hw' =>
          obtain ⟨c, t', rfl, h⟩ := text_ne_comma ht
          exact ⟨w, c, t' ++ w', hw, h, by simp⟩
        | cons v w t w' l t' hw ht hw' hl =>
          obtain ⟨c, t', rfl, h⟩ := text_ne_comma ht
          exact ⟨w, c, _, hw, h, by simp; rfl⟩
      obtain ⟨w1, c, t1, h3, h2, rfl⟩ := this
      exact fin w1 c t1 (93 :: w') h3 h2 (by simpa using e)
    | obj0 w1 h1 =>
      simp at hx; obtain ⟨_, rfl⟩ := hx
      exact fin w1 125 [] w' h1 (by decide) (by simpa using e)
    | obj m u h1 =>
      simp at hx; obtain ⟨_, rfl⟩ := hx
      have : ∃ w1 t1, WS w1 ∧ u = w1 ++ (34 :: t1) := by
        cases h1 with
        | one k v w kt w1 w2 t w' hw => exact ⟨w, _, hw, rfl⟩
        | cons k v w kt w1 w2 t w' m t' hw => exact ⟨w, _, hw, rfl⟩
      obtain ⟨w1, t1, h3, rfl⟩ := this
      exact fin w1 34 t1 (125 :: w') h3 (by decide) (by simpa using e)

theorem token_prefix_elems {F : FloatCodec} {l : List Val} {t p q : Bytes} (h : Elems F l t) (e : t = p ++ q) :
    token 93 p = none := by
  obtain ⟨w, c, t', hw, ht, h1, h2⟩ := elems_head h
  rw [ht] at e
  rcases append_cons_prefix e.symm with ⟨a, ha⟩ | ⟨p', _, rfl⟩
  · exact token_all (ws_prefix hw ha) _
  · rw [token_ws hw]; exact token_ne h1 h2 _

theorem token_prefix_members {F : FloatCodec} {l : List (Bytes × Val)} {t p q : Bytes} (h : Members F l t) (e : t = p ++ q) :
    token 125 p = none := by
  obtain ⟨w, t', hw, ht⟩ := members_head h
  rw [ht] at e
  rcases append_cons_prefix e.symm with ⟨a, ha⟩ | ⟨p', _, rfl⟩
  · exact token_all (ws_prefix hw ha) _
  · rw [token_ws hw]; exact token_ne (by decide) (by decide) _

theorem text_arr {F : FloatCodec} {l : List Val} {t : Bytes} (h : Text F (.arr l) t) :
    (l = [] ∧ ∃ w, WS w ∧ t = 91 :: (w ++ [93])) ∨ ∃ u, Elems F l u ∧ t = 91 :: (u ++ [93]) := by
  cases h with
  | arr0 w h => left; exact ⟨rfl, w, h, rfl⟩
  | arr l u h => right; exact ⟨u, h, rfl⟩

theorem text_obj {F : FloatCodec} {m : List (Bytes × Val)} {t : Bytes} (h : Text F (.obj m) t) :
    (m = [] ∧ ∃ w, WS w ∧ t = 123 :: (w ++ [125])) ∨ ∃ ms u, m = mapOf ms ∧ Members F ms u ∧ t = 123 :: (u ++ [125]) := by
  cases h with
  | obj0 w h => left; exact ⟨rfl, w, h, rfl⟩
  | obj m u h => right; exact ⟨m, u, rfl, h, rfl⟩

theorem readAll_array_cut {F : FloatCodec} {l : List Val} {w t p q : Bytes} (hw : WS w) (ht : Text F (.arr l) t)
    (e : w ++ t = p ++ q) (hq : q ≠ []) : (readAll F .array p).2 ≠ .eof := by
  rcases text_arr ht with ⟨_, w', hw', rfl⟩ | ⟨u, hu, rfl⟩
  · refine readAll_cut (tl := .array) hw (by decide) (fun n p q e => ?_) p q e hq
    have := ws_prefix hw' e
    exact ⟨token_all this _, readBody_all F _ this n 0⟩
  · exact readAll_cut (tl := .array) hw (by decide)
      (fun n p q e => ⟨token_prefix_elems hu e, readTop_elems_cut hu n 0 p q e⟩) p q e hq

theorem readAll_object_cut {F : FloatCodec} {m : List (Bytes × Val)} {w t p q : Bytes} (hw : WS w) (ht : Text F (.obj m) t)
    (e : w ++ t = p ++ q) (hq : q ≠ []) : (readAll F .object p).2 ≠ .eof := by
  rcases text_obj ht with ⟨_, w', hw', rfl⟩ | ⟨ms, u, -, hu, rfl⟩
  · refine readAll_cut (tl := .object) hw (by decide) (fun n p q e => ?_) p q e hq
    have := ws_prefix hw' e
    exact ⟨token_all this _, readBody_all F _ this n 0⟩
  · exact readAll_cut (tl := .object) hw (by decide)
      (fun n p q e => ⟨token_prefix_members hu e, readTop_members_cut hu n 0 p q e⟩) p q e hq

end Verif.Json
