import Verif.Model.Csv
import Verif.Lemmas.JsonDecode
import Verif.Lemmas.JsonParse
import Verif.Props.Vals
/-
C80: cells holding arrays and objects (`vals.ParseJSON`, `Type.Parse`, `Type.ValueToString`, `ParseType`).
-/
set_option autoImplicit false
namespace Verif.Vals
open JsonStd JsonG

/-- the JSON functions of the library are those of encoding/json -/
structure Std (F : FloatCodec) (L : Lib) : Prop where
  map : ∀ s, L.unmarshalMap s = CsvIO.unmarshalObject F s
  slice : ∀ s, L.unmarshalSlice s = CsvIO.unmarshalArray F s

/-- an array or an object -/
def Nested (v : Val) : Prop := (∃ l, v = .arr l) ∨ ∃ m, v = .obj m

/-- spaces and line feeds, the two kinds of white space that guessing a type skips -/
def Plain (w : Bytes) : Prop := ∀ c ∈ w, c = 32 ∨ c = 10

/-! ### The outermost bracket -/

theorem outer_ws {w : Bytes} (hw : WS w) (r : Bytes) : jsonArrayOrObject (w ++ r) = jsonArrayOrObject r := by
  induction w with
  | nil => rfl
  | cons c w ih =>
    have hc := hw c (by simp)
    rw [List.cons_append, jsonArrayOrObject, ih fun x hx => hw x (by simp [hx])]
    rcases hc with rfl | rfl | rfl | rfl <;> simp

theorem outer_ws_nil {w : Bytes} (hw : WS w) : jsonArrayOrObject w = [] := by
  have := outer_ws hw []
  simpa [jsonArrayOrObject] using this

theorem outer_arr {l : List Tree} {t : Bytes} (h : Spells (.arr l) t) (r : Bytes) : ∃ u, t ++ r = 91 :: u := by
  cases h <;> exact ⟨_, rfl⟩

theorem outer_obj {m : List (Bytes × Tree)} {t : Bytes} (h : Spells (.obj m) t) (r : Bytes) : ∃ u, t ++ r = 123 :: u := by
  cases h <;> exact ⟨_, rfl⟩

theorem plain_arr {F : FloatCodec} {T : Tree} {l : List Val} (h : plain F T = some (.arr l)) : ∃ x, T = .arr x := by
  cases T <;> simp [plain] at h ⊢

theorem plain_obj {F : FloatCodec} {T : Tree} {m : List (Bytes × Val)} (h : plain F T = some (.obj m)) : ∃ x, T = .obj x := by
  cases T <;> simp [plain] at h ⊢

theorem plain_null {F : FloatCodec} {T : Tree} (h : plain F T = some .null) : T = .null := by
  cases T <;> simp [plain] at h ⊢

/-- where the text of an array begins -/
theorem array_starts {F : FloatCodec} {s : Bytes} {l : List Val} (h : unmarshal F s = some (.arr l)) : ∃ w u, s = w ++ 91 :: u ∧ WS w := by
  obtain ⟨w, t, w', T, rfl, hw, _, hT, _, hp⟩ := (unmarshal_iff F s _).1 h
  obtain ⟨x, rfl⟩ := plain_arr hp
  obtain ⟨u, e⟩ := outer_arr hT w'
  exact ⟨w, u, by rw [e], hw⟩

/-- where the text of an object begins -/
theorem object_starts {F : FloatCodec} {s : Bytes} {m : List (Bytes × Val)} (h : unmarshal F s = some (.obj m)) : ∃ w u, s = w ++ 123 :: u ∧ WS w := by
  obtain ⟨w, t, w', T, rfl, hw, _, hT, _, hp⟩ := (unmarshal_iff F s _).1 h
  obtain ⟨x, rfl⟩ := plain_obj hp
  obtain ⟨u, e⟩ := outer_obj hT w'
  exact ⟨w, u, by rw [e], hw⟩

theorem null_text {F : FloatCodec} {s : Bytes} (h : unmarshal F s = some .null) : jsonArrayOrObject s = [] := by
  obtain ⟨w, t, w', T, rfl, hw, hw', hT, _, hp⟩ := (unmarshal_iff F s _).1 h
  rw [plain_null hp] at hT
  cases hT
  rw [outer_ws hw]
  simp [jsonArrayOrObject, outer_ws_nil hw']

theorem array_outer {F : FloatCodec} {s : Bytes} {l : List Val} (h : unmarshal F s = some (.arr l)) : jsonArrayOrObject s = b!"array" := by
  obtain ⟨w, u, rfl, hw⟩ := array_starts h
  rw [outer_ws hw]; simp [jsonArrayOrObject]

theorem object_outer {F : FloatCodec} {s : Bytes} {m : List (Bytes × Val)} (h : unmarshal F s = some (.obj m)) : jsonArrayOrObject s = b!"object" := by
  obtain ⟨w, u, rfl, hw⟩ := object_starts h
  rw [outer_ws hw]; simp [jsonArrayOrObject]

theorem parseJSON_iff {F : FloatCodec} {L : Lib} (hL : Std F L) (s : Bytes) (v : Val) :
    parseJSON L s = some v ↔ unmarshal F s = some v ∧ Nested v := by
  unfold parseJSON
  rw [hL.map, hL.slice]
  constructor
  · intro h
    by_cases h0 : jsonArrayOrObject s = []
    · rw [if_pos h0] at h; cases h
    rw [if_neg h0] at h
    by_cases h1 : jsonArrayOrObject s = b!"object"
    · rw [if_pos h1] at h
      unfold CsvIO.unmarshalObject at h
      split at h
      · rename_i m e
        simp only [Option.some.injEq] at h
        subst h
        exact ⟨e, .inr ⟨m, rfl⟩⟩
      · rename_i e; exact absurd (null_text e) h0
      · cases h
    · rw [if_neg h1] at h
      unfold CsvIO.unmarshalArray at h
      split at h
      · rename_i m e
        simp only [Option.some.injEq] at h
        subst h
        exact ⟨e, .inl ⟨m, rfl⟩⟩
      · rename_i e; exact absurd (null_text e) h0
      · cases h
  · rintro ⟨h, ⟨l, rfl⟩ | ⟨m, rfl⟩⟩
    · rw [array_outer h, if_neg (by decide), if_neg (by decide)]
      simp [CsvIO.unmarshalArray, h]
    · rw [object_outer h, if_neg (by decide), if_pos rfl]
      simp [CsvIO.unmarshalObject, h]

/-! ### C80 -/

/-- **C80**: a cell declared as array or object parses exactly when its text is JSON for an array or an object, and the result is what the
text means.  Which of the two was declared plays no role. -/
theorem C80_parse {F : FloatCodec} {L : Lib} (hL : Std F L) (t : VType) (ht : t = .array ∨ t = .object) (s : Bytes) (v : Val) :
    t.parse L s = some v ↔ unmarshal F s = some v ∧ Nested v := by
  rcases ht with rfl | rfl <;> exact parseJSON_iff hL s v

/-- **C80**, in terms of the grammar: white space around the text is allowed, nesting is limited, and numbers must be in range. -/
theorem C80_grammar {F : FloatCodec} {L : Lib} (hL : Std F L) (t : VType) (ht : t = .array ∨ t = .object) (s : Bytes) :
    (∃ v, t.parse L s = some v) ↔ ∃ (w x w' : Bytes) (T : Tree), s = w ++ (x ++ w') ∧ WS w ∧ WS w' ∧ Spells T x ∧ T.depth ≤ maxDepth ∧
      (plain F T).isSome ∧ ((∃ l, T = .arr l) ∨ ∃ m, T = .obj m) := by
  constructor
  · rintro ⟨v, h⟩
    obtain ⟨h, hv⟩ := (C80_parse hL t ht s v).1 h
    obtain ⟨w, x, w', T, e, hw, hw', hT, hd, hp⟩ := (unmarshal_iff F s v).1 h
    refine ⟨w, x, w', T, e, hw, hw', hT, hd, by simp [hp], ?_⟩
    rcases hv with ⟨l, rfl⟩ | ⟨m, rfl⟩
    · exact .inl (plain_arr hp)
    · exact .inr (plain_obj hp)
  · rintro ⟨w, x, w', T, e, hw, hw', hT, hd, hp, hv⟩
    obtain ⟨v, hp⟩ := Option.isSome_iff_exists.1 hp
    refine ⟨v, (C80_parse hL t ht s v).2 ⟨(unmarshal_iff F s v).2 ⟨w, x, w', T, e, hw, hw', hT, hd, hp⟩, ?_⟩⟩
    rcases hv with ⟨l, rfl⟩ | ⟨m, rfl⟩
    · simp only [plain, Option.map_eq_some_iff] at hp
      obtain ⟨l, _, rfl⟩ := hp
      exact .inl ⟨l, rfl⟩
    · simp only [plain, Option.map_eq_some_iff] at hp
      obtain ⟨l, _, rfl⟩ := hp
      exact .inr ⟨_, rfl⟩

/-- **C80**: an array or object printed under either type and parsed under either type is what JSON keeps of it (`jnorm`: numbers become
floats, bytes become base64 text). -/
theorem C80_print_parse {F : FloatCodec} {L : Lib} (hL : Std F L) (t t' : VType) (ht : t = .array ∨ t = .object) (ht' : t' = .array ∨ t' = .object)
    (v w : Val) (hm : L.marshal v = some (enc F v)) (hv : Nested v) (hn : NumsOK F v) (hd : depth v ≤ maxDepth) (hw : jnorm F v = some w) :
    t.valueToString L v = some (enc F v) ∧ t'.parse L (enc F v) = some w := by
  refine ⟨by rcases ht with rfl | rfl <;> exact hm, (C80_parse hL t' ht' _ w).2 ⟨?_, ?_⟩⟩
  · have := unmarshal_enc F v [] hn hd (by intro c hc; simp at hc)
    rw [List.append_nil] at this
    rw [this, hw]
  · rcases hv with ⟨l, rfl⟩ | ⟨m, rfl⟩
    · simp only [jnorm, Option.map_eq_some_iff] at hw
      obtain ⟨l, _, rfl⟩ := hw
      exact .inl ⟨l, rfl⟩
    · simp only [jnorm, Option.map_eq_some_iff] at hw
      obtain ⟨l, _, rfl⟩ := hw
      exact .inr ⟨_, rfl⟩

/-- **C80**: anything else printed under these types does not parse: the types do not check what they print. -/
theorem C80_others_print {F : FloatCodec} {L : Lib} (hL : Std F L) (t t' : VType) (ht : t = .array ∨ t = .object) (ht' : t' = .array ∨ t' = .object)
    (v : Val) (hm : L.marshal v = some (enc F v)) (hv : ¬ Nested v) (hn : NumsOK F v) :
    t.valueToString L v = some (enc F v) ∧ t'.parse L (enc F v) = none := by
  refine ⟨by rcases ht with rfl | rfl <;> exact hm, ?_⟩
  cases hp : t'.parse L (enc F v) with
  | none => rfl
  | some w =>
    exfalso
    obtain ⟨h, hw⟩ := (C80_parse hL t' ht' _ w).1 hp
    have hd : depth v ≤ maxDepth := by
      cases v <;> first | exact Nat.zero_le _ | (exfalso; exact hv (.inl ⟨_, rfl⟩)) | (exfalso; exact hv (.inr ⟨_, rfl⟩))
    have := unmarshal_enc F v [] hn hd (by intro c hc; simp at hc)
    rw [List.append_nil, h] at this
    rcases hw with ⟨l, rfl⟩ | ⟨m, rfl⟩ <;> cases v <;> simp [jnorm, eq_comm (a := some (Val.arr _)), eq_comm (a := some (Val.obj _))] at this <;>
      first | exact hv (.inl ⟨_, rfl⟩) | exact hv (.inr ⟨_, rfl⟩)

/-! ### Guessing -/

theorem loop_plain (L : Lib) (s : Bytes) {w : Bytes} (hw : Plain w) (r : Bytes) : parseTypeLoop L s (w ++ r) = parseTypeLoop L s r := by
  induction w with
  | nil => rfl
  | cons c w ih =>
    have hc := hw c (by simp)
    rw [List.cons_append, parseTypeLoop, ih fun x hx => hw x (by simp [hx])]
    rcases hc with rfl | rfl <;> simp [isDigit]

theorem loop_bracket (L : Lib) (s : Bytes) : ∀ r : Bytes,
    (parseTypeLoop L s r = .array ↔ ∃ w u, r = w ++ 91 :: u ∧ Plain w) ∧ (parseTypeLoop L s r = .object ↔ ∃ w u, r = w ++ 123 :: u ∧ Plain w) := by
  intro r
  constructor
  · constructor
    · intro h
      induction r with
      | nil => simp [parseTypeLoop] at h
      | cons b r ih =>
        rw [parseTypeLoop] at h
        split at h
        · cases h
        split at h
        · split at h
          · cases h
          · split at h <;> cases h
        split at h
        · cases h
        split at h
        · rename_i e; subst e; exact ⟨[], r, rfl, by simp [Plain]⟩
        split at h
        · rename_i hb
          obtain ⟨w, u, rfl, hw⟩ := ih h
          exact ⟨b :: w, u, rfl, fun x hx => (List.mem_cons.1 hx).elim (fun e => e ▸ hb) (hw x)⟩
        · cases h
    · rintro ⟨w, u, rfl, hw⟩
      rw [loop_plain L s hw]; simp [parseTypeLoop, isDigit]
  · constructor
    · intro h
      induction r with
      | nil => simp [parseTypeLoop] at h
      | cons b r ih =>
        rw [parseTypeLoop] at h
        split at h
        · cases h
        split at h
        · split at h
          · cases h
          · split at h <;> cases h
        split at h
        · rename_i e; subst e; exact ⟨[], r, rfl, by simp [Plain]⟩
        split at h
        · cases h
        split at h
        · rename_i hb
          obtain ⟨w, u, rfl, hw⟩ := ih h
          exact ⟨b :: w, u, rfl, fun x hx => (List.mem_cons.1 hx).elim (fun e => e ▸ hb) (hw x)⟩
        · cases h
    · rintro ⟨w, u, rfl, hw⟩
      rw [loop_plain L s hw]; simp [parseTypeLoop, isDigit]

theorem bracket_not_boolean {w u : Bytes} {c : UInt8} (hc : c = 91 ∨ c = 123) :
    isBoolean (w ++ c :: u) = false ∧ w ++ c :: u ≠ b!"null" := by
  have key : ∀ s ∈ [b!"t", b!"f", b!"T", b!"F", b!"true", b!"false", b!"TRUE", b!"FALSE", b!"True", b!"False", b!"null"],
      (91 : UInt8) ∉ s ∧ (123 : UInt8) ∉ s := by decide +kernel
  have hmem : c ∈ w ++ c :: u := by simp
  constructor
  · cases hb : isBoolean (w ++ c :: u) with
    | false => rfl
    | true =>
      have hk : w ++ c :: u ∈ [b!"t", b!"f", b!"T", b!"F", b!"true", b!"false", b!"TRUE", b!"FALSE", b!"True", b!"False"] := of_decide_eq_true hb
      have := key _ (List.mem_append_left [b!"null"] hk)
      rcases hc with rfl | rfl
      · exact absurd hmem this.1
      · exact absurd hmem this.2
  · intro e
    have := key b!"null" (by simp)
    rw [← e] at this
    rcases hc with rfl | rfl
    · exact absurd hmem this.1
    · exact absurd hmem this.2

/-- **C80**: a text is guessed to be an array (object) exactly when it begins, after spaces and line feeds, with the opening bracket
(brace). -/
theorem C80_guess (L : Lib) (s : Bytes) :
    (parseType L s = .array ↔ ∃ w u, s = w ++ 91 :: u ∧ Plain w) ∧ (parseType L s = .object ↔ ∃ w u, s = w ++ 123 :: u ∧ Plain w) := by
  have h := loop_bracket L s s
  unfold parseType
  by_cases hb : isBoolean s = true
  · rw [if_pos hb]
    constructor
    · simp only [reduceCtorEq, false_iff]
      rintro ⟨w, u, rfl, _⟩
      rw [(bracket_not_boolean (.inl rfl)).1] at hb; cases hb
    · simp only [reduceCtorEq, false_iff]
      rintro ⟨w, u, rfl, _⟩
      rw [(bracket_not_boolean (.inr rfl)).1] at hb; cases hb
  rw [if_neg hb]
  by_cases hn : s = b!"null"
  · rw [if_pos hn]
    constructor
    · simp only [reduceCtorEq, false_iff]
      rintro ⟨w, u, rfl, _⟩
      exact (bracket_not_boolean (.inl rfl)).2 hn
    · simp only [reduceCtorEq, false_iff]
      rintro ⟨w, u, rfl, _⟩
      exact (bracket_not_boolean (.inr rfl)).2 hn
  rw [if_neg hn]
  exact h

/-- **C80**: when a text guessed to be an array or object parses at all, it parses to what was guessed; … -/
theorem C80_guess_sound {F : FloatCodec} {L : Lib} (hL : Std F L) (t : VType) (ht : t = .array ∨ t = .object) (s : Bytes) (v : Val)
    (h : t.parse L s = some v) : (parseType L s = .array → ∃ l, v = .arr l) ∧ (parseType L s = .object → ∃ m, v = .obj m) := by
  obtain ⟨hu, hv⟩ := (C80_parse hL t ht s v).1 h
  have plain_ws : ∀ w, Plain w → WS w := fun w hw c hc => by rcases hw c hc with h | h <;> simp [h]
  constructor
  · intro hg
    obtain ⟨w, u, rfl, hw⟩ := (C80_guess L s).1.1 hg
    rcases hv with hv | ⟨m, rfl⟩
    · exact hv
    · have := object_outer hu
      rw [outer_ws (plain_ws w hw)] at this
      simp [jsonArrayOrObject] at this
  · intro hg
    obtain ⟨w, u, rfl, hw⟩ := (C80_guess L s).2.1 hg
    rcases hv with ⟨l, rfl⟩ | hv
    · have := array_outer hu
      rw [outer_ws (plain_ws w hw)] at this
      simp [jsonArrayOrObject] at this
    · exact hv

/-- **C80**: … and the text of an array (object) is guessed to be one exactly when no tab or carriage return precedes it. -/
theorem C80_guess_complete {F : FloatCodec} {L : Lib} (hL : Std F L) (t : VType) (ht : t = .array ∨ t = .object) (s : Bytes) (v : Val)
    (h : t.parse L s = some v) : ∃ w c u, s = w ++ c :: u ∧ WS w ∧ (c = 91 ∨ c = 123) ∧
      (parseType L s = (if c = 91 then .array else .object) ↔ Plain w) := by
  obtain ⟨hu, hv⟩ := (C80_parse hL t ht s v).1 h
  have key : ∀ (c : UInt8), isWS c = false → ∀ (w u w' u' : Bytes), WS w → Plain w' → w ++ c :: u = w' ++ c :: u' → Plain w := by
    intro c hc w
    induction w with
    | nil => intros; simp [Plain]
    | cons a w ih =>
      intro u w' u' hw hw' e
      cases w' with
      | nil =>
        simp only [List.nil_append, List.cons_append, List.cons.injEq] at e
        have := (isWS_iff a).2 (hw a (by simp))
        rw [e.1, hc] at this; cases this
      | cons b w' =>
        simp only [List.cons_append, List.cons.injEq] at e
        have := ih u w' u' (fun x hx => hw x (by simp [hx])) (fun x hx => hw' x (by simp [hx])) e.2
        intro x hx
        rcases List.mem_cons.1 hx with rfl | hx
        · exact hw' x (by simp [e.1])
        · exact this x hx
  rcases hv with ⟨l, rfl⟩ | ⟨m, rfl⟩
  · obtain ⟨w, u, rfl, hw⟩ := array_starts hu
    refine ⟨w, 91, u, rfl, hw, .inl rfl, ?_⟩
    rw [if_pos rfl, (C80_guess L _).1]
    exact ⟨fun ⟨w', u', e, hw'⟩ => key 91 (by decide) w u w' u' hw hw' e, fun h => ⟨w, u, rfl, h⟩⟩
  · obtain ⟨w, u, rfl, hw⟩ := object_starts hu
    refine ⟨w, 123, u, rfl, hw, .inr rfl, ?_⟩
    rw [if_neg (by decide), (C80_guess L _).2]
    exact ⟨fun ⟨w', u', e, hw'⟩ => key 123 (by decide) w u w' u' hw hw' e, fun h => ⟨w, u, rfl, h⟩⟩

/-! ### Examples -/

/-- floats for the examples: a text of one digit is that number of units -/
def cellF : FloatCodec where
  fmt x := fmtInt x.toNat
  parse s := (parseNatAux 0 s).map UInt64.ofNat

/-- the library for the examples -/
def cellLib : Lib where
  parse64 := cellF.parse
  parse32 s := (cellF.parse s).isSome
  fmtG := cellF.fmt
  unmarshalMap := CsvIO.unmarshalObject cellF
  unmarshalSlice := CsvIO.unmarshalArray cellF
  marshal v := some (enc cellF v)

example : Std cellF cellLib := ⟨fun _ => rfl, fun _ => rfl⟩
/-- the declared type plays no role, scalars are refused, and so is JSON with something behind it -/
example : VType.array.parse cellLib b!" {\"a\":[1]} " = some (.obj [(b!"a", .arr [.f64 1])]) ∧ VType.object.parse cellLib b!"[]" = some (.arr []) ∧
    VType.array.parse cellLib b!"null" = none ∧ VType.array.parse cellLib b!"\"[]\"" = none ∧ VType.array.parse cellLib b!"[] x" = none := by
  refine ⟨rfl, rfl, rfl, rfl, rfl⟩
/-- guessing stops at a tab although JSON allows it, and a bracket is enough for a guess -/
example : parseType cellLib b!"\n [1]" = .array ∧ parseType cellLib b!"\t[1]" = .string ∧ parseType cellLib b!"[nothing" = .array ∧
    VType.array.parse cellLib b!"[nothing" = none ∧ VType.array.parse cellLib b!"\t[1]" = some (.arr [.f64 1]) := by
  refine ⟨by decide +kernel, by decide +kernel, by decide +kernel, rfl, rfl⟩
/-- printed and parsed again: the integer comes back as a float, the bytes as base64 text -/
example : VType.object.valueToString cellLib (.obj [(b!"k", .arr [.gint 7, .bytes [1]])]) = some b!"{\"k\":[7,\"AQ==\"]}" ∧
    VType.object.parse cellLib b!"{\"k\":[7,\"AQ==\"]}" = some (.obj [(b!"k", .arr [.f64 7, .str b!"AQ=="])]) ∧
    VType.object.valueToString cellLib (.bool true) = some b!"true" ∧ VType.object.parse cellLib b!"true" = none := by
  refine ⟨by decide +kernel, rfl, by decide +kernel, rfl⟩

end Verif.Vals
