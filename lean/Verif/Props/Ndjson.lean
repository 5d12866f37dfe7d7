import Verif.Model.Ndjson
import Verif.Lemmas.JsonParse
import Verif.Lemmas.JsonLines
import Verif.Lemmas.JsonDecode
import Verif.Props.Convert
/-
C23: newline-delimited JSON.
-/
set_option autoImplicit false
namespace Verif.Ndjson
open JsonStd Streams

/-! ### framing -/

theorem enc_nl (F : FloatCodec) (v : Val) (h : NumsOK F v) : ∀ c ∈ enc F v, c ≠ 10 := by
  rintro c hc rfl
  have := enc_vis F v h _ hc
  revert this; decide

theorem readLine_line {l : Bytes} (h : ∀ c ∈ l, c ≠ 10) (r : Bytes) : readLine (l ++ 10 :: r) = some (l ++ [10], r) := by
  induction l with
  | nil => simp [readLine]
  | cons c l ih =>
    have := ih fun x hx => h x (by simp [hx])
    simp [readLine, h c (by simp), this]

theorem readLine_none {l : Bytes} (h : ∀ c ∈ l, c ≠ 10) : readLine l = none := by
  induction l with
  | nil => rfl
  | cons c l ih => simp [readLine, h c (by simp), ih fun x hx => h x (by simp [hx])]

theorem writeAll_append (F : FloatCodec) (es : List Entry) (out : Bytes) :
    es.foldl (fun out e => (writer F e out).2) out = out ++ ((es.filter fun e => jsonOK e.value).map fun e => enc F e.value ++ [10]).flatten := by
  induction es generalizing out with
  | nil => simp
  | cons e es ih =>
    rw [List.foldl_cons, ih]
    by_cases h : jsonOK e.value <;> simp [writer, h]

/-- Every accepted entry is one line: its JSON text, which has no newline inside, and a newline. -/
theorem C23_one_line_each (F : FloatCodec) (es : List Entry) (h : ∀ e ∈ es, NumsOK F e.value) :
    writeAll F es = ((es.filter fun e => jsonOK e.value).map fun e => enc F e.value ++ [10]).flatten ∧
    ((writeAll F es).filter (· = 10)).length = (es.filter fun e => jsonOK e.value).length := by
  have e1 : writeAll F es = ((es.filter fun e => jsonOK e.value).map fun e => enc F e.value ++ [10]).flatten := by
    simpa [writeAll] using writeAll_append F es []
  refine ⟨e1, ?_⟩
  rw [e1]
  have hall : ∀ e ∈ es.filter (fun e => jsonOK e.value), NumsOK F e.value := fun e he => h e ((List.mem_filter.mp he).1)
  generalize es.filter (fun e => jsonOK e.value) = fs at hall
  induction fs with
  | nil => simp
  | cons e fs ih =>
    have h1 : (enc F e.value).filter (· = 10) = [] := by
      rw [List.filter_eq_nil_iff]
      intro c hc
      simpa using enc_nl F e.value (hall e (by simp)) c hc
    have := ih fun x hx => hall x (by simp [hx])
    rw [List.map_cons, List.flatten_cons, List.filter_append, List.filter_append, h1, List.length_append, this]
    simp [Nat.add_comm]

/-- Entries are accepted exactly when they hold no infinities or NaNs. -/
theorem C23_accepts (F : FloatCodec) (e : Entry) (out : Bytes) : (writer F e out).1 = none ↔ jsonOK e.value = true := by
  by_cases h : jsonOK e.value <;> simp [writer, h]

/-! ### round trip -/

theorem reader_line (F : FloatCodec) (v w : Val) (n : Int) (r : Bytes) (h : NumsOK F v) (hd : depth v ≤ maxDepth) (hj : jnorm F v = some w) :
    reader F { entriesRead := n, rest := enc F v ++ [10] ++ r } = (.entry { index := n, value := w }, { entriesRead := n + 1, rest := r }) := by
  have h1 : readLine (enc F v ++ [10] ++ r) = some (enc F v ++ [10], r) := by
    rw [List.append_assoc]
    exact readLine_line (enc_nl F v h) r
  have h2 : unmarshal F (enc F v ++ [10]) = some w := by
    rw [unmarshal_enc F v [10] h hd (by intro c hc; simp at hc; simp [hc]), hj]
  simp only [reader, h1, h2]

theorem yields_lines (F : FloatCodec) (vs ws : List Val) (n : Int) (r : Bytes) (h : ∀ v ∈ vs, NumsOK F v ∧ depth v ≤ maxDepth)
    (hj : vs.map (jnorm F) = ws.map some) :
    Yields (reader F) { entriesRead := n, rest := (vs.map fun v => enc F v ++ [10]).flatten ++ r } (Json.indexed n ws)
      { entriesRead := n + vs.length, rest := r } := by
  induction vs generalizing ws n with
  | nil =>
    cases ws with
    | nil => simpa [Json.indexed] using Yields.nil _
    | cons => simp at hj
  | cons v vs ih =>
    cases ws with
    | nil => simp at hj
    | cons w ws =>
      simp only [List.map_cons, List.cons.injEq] at hj
      have h0 := h v (by simp)
      have e1 := reader_line F v w n ((vs.map fun v => enc F v ++ [10]).flatten ++ r) h0.1 h0.2 hj.1
      have e2 := ih ws (n + 1) (fun x hx => h x (by simp [hx])) hj.2
      rw [Json.indexed]
      rw [List.map_cons, List.flatten_cons, List.append_assoc]
      refine .cons e1 ?_
      rw [List.length_cons, show n + ((vs.length + 1 : Nat) : Int) = n + 1 + vs.length by omega]
      exact e2

/-- Writing entries and reading them back gives every accepted entry, in order, numbered from 0, and then
the end of file.  `jnorm` says what becomes of the values. -/
theorem C23_round_trip (F : FloatCodec) (es : List Entry) (ws : List Val) (h : ∀ e ∈ es, NumsOK F e.value ∧ depth e.value ≤ maxDepth)
    (hj : (es.filter fun e => jsonOK e.value).map (fun e => jnorm F e.value) = ws.map some) :
    ∃ st, Drains (reader F) { rest := writeAll F es } (Json.indexed 0 ws) .eof st := by
  have e1 : writeAll F es = (((es.filter fun e => jsonOK e.value).map fun e => e.value).map fun v => enc F v ++ [10]).flatten ++ [] := by
    simpa [writeAll, Function.comp_def] using writeAll_append F es []
  refine ⟨_, { entriesRead := 0 + ((es.filter fun e => jsonOK e.value).map fun e => e.value).length, rest := [] }, ?_, rfl⟩
  rw [e1]
  refine yields_lines F _ ws 0 [] ?_ (by rw [← hj]; simp)
  intro v hv
  obtain ⟨e, he, rfl⟩ := List.mem_map.mp hv
  exact h e (List.mem_filter.mp he).1

mutual
/-- values that survive: no integers, no byte strings, valid UTF-8, floats whose text parses back -/
def Kept (F : FloatCodec) : Val → Prop
  | .null => True
  | .bool _ => True
  | .int _ => False
  | .gint _ => False
  | .f64 x => Numeral (F.fmt x) ∧ F.parse (F.fmt x) = some x ∧ floatFinite x = true
  | .str s => ValidUtf8 s
  | .bytes _ => False
  | .arr l => KeptL F l
  | .obj m => KeysSorted m ∧ KeptF F m
def KeptL (F : FloatCodec) : List Val → Prop
  | [] => True
  | v :: l => Kept F v ∧ KeptL F l
def KeptF (F : FloatCodec) : List (Bytes × Val) → Prop
  | [] => True
  | (k, v) :: m => ValidUtf8 k ∧ Kept F v ∧ KeptF F m
end

mutual
theorem kept_norm (F : FloatCodec) : ∀ v, Kept F v → jnorm F v = some v ∧ NumsOK F v ∧ jsonOK v = true
  | .null, _ => by simp [jnorm, NumsOK, jsonOK]
  | .bool _, _ => by simp [jnorm, NumsOK, jsonOK]
  | .f64 x, h => by simp only [Kept] at h; simp [jnorm, NumsOK, jsonOK, h]
  | .str s, h => by simp only [Kept] at h; simp [jnorm, NumsOK, jsonOK, toValidUtf8_valid h]
  | .arr l, h => by
    simp only [Kept] at h
    have := keptL_norm F l h
    simp [jnorm, NumsOK, jsonOK, this]
  | .obj m, h => by
    simp only [Kept] at h
    have := keptF_norm F m h.2
    simp [jnorm, NumsOK, jsonOK, this, Json.mapOf_sorted h.1]
  | .int _, h => by simp only [Kept] at h
  | .gint _, h => by simp only [Kept] at h
  | .bytes _, h => by simp only [Kept] at h
theorem keptL_norm (F : FloatCodec) : ∀ l, KeptL F l → jnormL F l = some l ∧ NumsOKL F l ∧ jsonOKL l = true
  | [], _ => by simp [jnormL, NumsOKL, jsonOKL]
  | v :: l, h => by
    simp only [KeptL] at h
    have h1 := kept_norm F v h.1
    have h2 := keptL_norm F l h.2
    simp [jnormL, NumsOKL, jsonOKL, h1, h2]
theorem keptF_norm (F : FloatCodec) : ∀ m, KeptF F m → jnormF F m = some m ∧ NumsOKF F m ∧ jsonOKF m = true
  | [], _ => by simp [jnormF, NumsOKF, jsonOKF]
  | (k, v) :: m, h => by
    simp only [KeptF] at h
    have h1 := kept_norm F v h.2.1
    have h2 := keptF_norm F m h.2.2
    simp [jnormF, NumsOKF, jsonOKF, h1, h2, toValidUtf8_valid h.1]
end

/-- Bodies of such values come back unchanged. -/
theorem C23_same (F : FloatCodec) (vs : List Val) (h : ∀ v ∈ vs, Kept F v ∧ depth v ≤ maxDepth) :
    ∃ st, Drains (reader F) { rest := writeAll F (Json.indexed 0 vs) } (Json.indexed 0 vs) .eof st := by
  have hv : ∀ e ∈ Json.indexed 0 vs, e.value ∈ vs := by
    have key : ∀ (n : Int) (vs : List Val), ∀ e ∈ Json.indexed n vs, e.value ∈ vs := by
      intro n vs
      induction vs generalizing n with
      | nil => simp [Json.indexed]
      | cons v vs ih =>
        intro e he
        simp only [Json.indexed, List.mem_cons] at he
        rcases he with rfl | he
        · simp
        · exact List.mem_cons_of_mem _ (ih _ e he)
    exact key 0 vs
  refine C23_round_trip F _ vs (fun e he => ⟨(kept_norm F _ (h _ (hv e he)).1).2.1, (h _ (hv e he)).2⟩) ?_
  rw [List.filter_eq_self.mpr fun e he => (kept_norm F _ (h _ (hv e he)).1).2.2]
  have hm : (Json.indexed 0 vs).map (fun e => jnorm F e.value) = ((Json.indexed 0 vs).map (·.value)).map fun v => jnorm F v := by simp
  rw [hm, Streams.map_value_indexed]
  exact List.map_congr_left fun v hv => (kept_norm F v (h v hv).1).1

/-! ### what is not kept -/

mutual
/-- no integer and no byte string anywhere -/
def NoInt : Val → Prop
  | .int _ => False
  | .gint _ => False
  | .bytes _ => False
  | .arr l => NoIntL l
  | .obj m => NoIntF m
  | _ => True
def NoIntL : List Val → Prop
  | [] => True
  | v :: l => NoInt v ∧ NoIntL l
def NoIntF : List (Bytes × Val) → Prop
  | [] => True
  | (_, v) :: m => NoInt v ∧ NoIntF m
end

theorem noIntL_append {l l' : List Val} (h : NoIntL l) (h' : NoIntL l') : NoIntL (l ++ l') := by
  induction l with
  | nil => exact h'
  | cons v l ih => simp only [NoIntL, List.cons_append] at h ⊢; exact ⟨h.1, ih h.2⟩

theorem noIntF_mapSet {m : List (Bytes × Val)} (k : Bytes) {v : Val} (h : NoIntF m) (hv : NoInt v) : NoIntF (mapSet m k v) := by
  induction m with
  | nil => simp only [mapSet, NoIntF]; exact ⟨hv, trivial⟩
  | cons p m ih =>
    obtain ⟨k', v'⟩ := p
    simp only [NoIntF] at h
    rw [mapSet]
    split
    · simp only [NoIntF]; exact ⟨hv, h.2⟩
    · split
      · simp only [NoIntF]; exact ⟨hv, h⟩
      · simp only [NoIntF]; exact ⟨h.1, ih h.2⟩

theorem value_noInt (F : FloatCodec) (f : Nat) : (∀ d s v r, value F f d s = some (v, r) → NoInt v) ∧
    (∀ d acc s v r, NoIntL acc → elems F f d acc s = some (v, r) → NoInt v) ∧
    (∀ d acc s v r, NoIntF acc → members F f d acc s = some (v, r) → NoInt v) := by
  induction f with
  | zero => simp [value, elems, members]
  | succ f ih =>
    obtain ⟨iv, ie, im⟩ := ih
    refine ⟨?_, ?_, ?_⟩
    · intro d s v r h
      rw [value] at h
      split at h
      · simp at h
      · rename_i c t hs
        have hlit : ∀ tok w, NoInt w → lit tok w (c :: t) = some (v, r) → NoInt v := by
          intro tok w hw hl
          unfold lit at hl
          split at hl
          · simp at hl; rw [← hl.1]; exact hw
          · simp at hl
        split at h
        · exact hlit _ _ (by simp [NoInt]) h
        split at h
        · exact hlit _ _ (by simp [NoInt]) h
        split at h
        · exact hlit _ _ (by simp [NoInt]) h
        split at h
        · rw [Option.map_eq_some_iff] at h
          obtain ⟨p, _, hp⟩ := h
          simp at hp; rw [← hp.1]; simp [NoInt]
        split at h
        · split at h
          · simp at h
          split at h
          · simp at h
          · split at h
            · simp at h; rw [← h.1]; simp [NoInt, NoIntL]
            · exact ie _ _ _ _ _ (by simp [NoIntL]) h
        split at h
        · split at h
          · simp at h
          split at h
          · simp at h
          · split at h
            · simp at h; rw [← h.1]; simp [NoInt, NoIntF]
            · exact im _ _ _ _ _ (by simp [NoIntF]) h
        · rw [Option.bind_eq_some_iff] at h
          obtain ⟨p, _, h⟩ := h
          rw [Option.map_eq_some_iff] at h
          obtain ⟨x, _, hp⟩ := h
          simp at hp; rw [← hp.1]; simp [NoInt]
    · intro d acc s v r hacc h
      rw [elems, Option.bind_eq_some_iff] at h
      obtain ⟨p, hp, h⟩ := h
      have hp1 := iv _ _ _ _ hp
      have ha : NoIntL (acc ++ [p.1]) := noIntL_append hacc (by simp only [NoIntL]; exact ⟨hp1, trivial⟩)
      split at h
      · simp at h
      · split at h
        · exact ie _ _ _ _ _ ha h
        split at h
        · simp at h; rw [← h.1]; simpa [NoInt] using ha
        · simp at h
    · intro d acc s v r hacc h
      rw [members] at h
      split at h
      · simp at h
      · split at h
        · rw [Option.bind_eq_some_iff] at h
          obtain ⟨k, hk, h⟩ := h
          split at h
          · simp at h
          · split at h
            · rw [Option.bind_eq_some_iff] at h
              obtain ⟨p, hp, h⟩ := h
              have hp1 := iv _ _ _ _ hp
              have ha := noIntF_mapSet k.1 hacc hp1
              split at h
              · simp at h
              · split at h
                · exact im _ _ _ _ _ ha h
                split at h
                · simp at h; rw [← h.1]; simpa [NoInt] using ha
                · simp at h
            · simp at h
        · simp at h

/-- Integers do not survive: no entry read from newline-delimited JSON holds one. -/
theorem C23_never_integers (F : FloatCodec) (st st' : RState) (e : Entry) (h : reader F st = (.entry e, st')) : NoInt e.value := by
  unfold reader at h
  split at h
  · simp at h
  · split at h
    · simp at h
    · rename_i v hv
      simp at h
      rw [← h.1]
      unfold unmarshal at hv
      rw [Option.bind_eq_some_iff] at hv
      obtain ⟨p, hp, hv⟩ := hv
      split at hv
      · simp at hv
        rw [← hv]
        exact (value_noInt F _).1 _ _ _ _ hp
      · simp at hv

/-- An integer comes back as the float its text parses to. -/
theorem C23_integer_becomes_float (F : FloatCodec) (i : Int) (x : UInt64) (hx : F.parse (fmtInt i) = some x) :
    ∃ st, Drains (reader F) { rest := writeAll F [{ value := .int i }] } [{ index := 0, value := .f64 x }] .eof st :=
  C23_round_trip F [{ value := .int i }] [.f64 x] (by simp [NumsOK, depth]) (by rw [List.filter_cons_of_pos (by rfl)]; simp [jnorm, hx])

/-- A last line without newline is dropped: whatever stands behind the last newline has no effect. -/
theorem C23_unterminated_line_dropped (F : FloatCodec) (st : RState) (tail : Bytes) (es : List Entry) (st' : RState) (ht : ∀ c ∈ tail, c ≠ 10)
    (h : Drains (reader F) st es .eof st') (hs : st.rest = [] ∨ ∃ s, st.rest = s ++ [10]) :
    Drains (reader F) { st with rest := st.rest ++ tail } es .eof st' := by
  have hread : ∀ s : Bytes, (s = [] ∨ ∃ u, s = u ++ [10]) → (s = [] ∧ readLine (s ++ tail) = none) ∨
      ∃ l r, readLine s = some (l, r) ∧ readLine (s ++ tail) = some (l, r ++ tail) ∧ (r = [] ∨ ∃ u, r = u ++ [10]) := by
    intro s hs
    induction s with
    | nil => exact .inl ⟨rfl, readLine_none (by simpa using ht)⟩
    | cons c s ih =>
      right
      by_cases hc : c = 10
      · subst hc
        refine ⟨[10], s, by simp [readLine], by simp [readLine], ?_⟩
        rcases hs with h | ⟨u, hu⟩
        · simp at h
        · cases u with
          | nil => left; simpa using hu
          | cons a u => right; exact ⟨u, by simp at hu; exact hu.2⟩
      · have hs' : s = [] ∨ ∃ u, s = u ++ [10] := by
          rcases hs with h | ⟨u, hu⟩
          · simp at h
          · cases u with
            | nil => simp at hu; exact absurd hu.1 hc
            | cons a u => right; exact ⟨u, by simp at hu; exact hu.2⟩
        have hne : s ≠ [] := by
          rintro rfl
          rcases hs with h | ⟨u, hu⟩
          · simp at h
          · cases u with
            | nil => simp at hu; exact hc hu
            | cons a u => simp at hu
        rcases ih hs' with ⟨h, _⟩ | ⟨l, r, h1, h2, h3⟩
        · exact absurd h hne
        · exact ⟨c :: l, r, by simp [readLine, hc, h1], by simp [readLine, hc, h2], h3⟩
  obtain ⟨s₁, hy, hx⟩ := h
  induction hy with
  | nil s =>
    refine ⟨_, .nil _, ?_⟩
    rcases hread s.rest hs with ⟨h1, h2⟩ | ⟨l, r, h1, h2, h3⟩
    · rw [← hx]
      rw [h1] at h2
      simp only [List.nil_append] at h2
      simp [reader, h1, readLine, h2]
    · exfalso
      unfold reader at hx
      rw [h1] at hx
      simp only at hx
      split at hx <;> simp at hx
  | cons hr hy ih =>
    rename_i s s₁ s₂ e es
    rcases hread s.rest hs with ⟨h1, h2⟩ | ⟨l, r, h1, h2, h3⟩
    · exfalso
      unfold reader at hr
      rw [h1] at hr
      simp [readLine] at hr
    · unfold reader at hr
      rw [h1] at hr
      simp only at hr
      split at hr
      · simp at hr
      · rename_i v hv
        simp at hr
        obtain ⟨he, rfl⟩ := hr
        obtain ⟨s₂, hy', hx'⟩ := ih (by simpa using h3) hx
        refine ⟨s₂, .cons (s₁ := { entriesRead := s.entriesRead + 1, rest := r ++ tail }) ?_ hy', hx'⟩
        unfold reader
        simp only [h2, hv]
        simp [he]

/-- A line that is not JSON is an error, and so is an empty line; reading goes on behind it without
counting it. -/
theorem C23_bad_line (F : FloatCodec) (n : Int) (l r : Bytes) (hl : ∀ c ∈ l, c ≠ 10) (h : unmarshal F (l ++ [10]) = none) :
    ∃ x, reader F { entriesRead := n, rest := l ++ 10 :: r } = (.fail (.other x), { entriesRead := n, rest := r }) :=
  ⟨_, by simp only [reader, readLine_line hl, h]; rfl⟩

theorem C23_empty_line (F : FloatCodec) (n : Int) (r : Bytes) :
    ∃ x, reader F { entriesRead := n, rest := 10 :: r } = (.fail (.other x), { entriesRead := n, rest := r }) := by
  refine C23_bad_line F n [] r (by simp) ?_
  simp [unmarshal, value, skipWS, isWS]

/-- arrays nested in each other -/
def nest : Nat → Val
  | 0 => .arr []
  | k + 1 => .arr [nest k]

theorem value_too_deep (F : FloatCodec) (k : Nat) : ∀ (f d : Nat) (r : Bytes), maxDepth ≤ d + k → value F f d (enc F (nest k) ++ r) = none := by
  induction k with
  | zero =>
    intro f d r h
    cases f with
    | zero => rfl
    | succ f =>
      have : maxDepth ≤ d := by omega
      simp [nest, enc, encL, value, skipWS, isWS, this]
  | succ k ih =>
    intro f d r h
    cases f with
    | zero => rfl
    | succ f =>
      by_cases hd : maxDepth ≤ d
      · simp [nest, enc, value, skipWS, isWS, hd]
      · have e : ∃ t, enc F (nest k) = 91 :: t := by cases k <;> exact ⟨_, rfl⟩
        have e1 : enc F (nest (k + 1)) ++ r = 91 :: (enc F (nest k) ++ 93 :: r) := by simp [nest, enc, encL]
        obtain ⟨t, ht⟩ := e
        rw [e1, ht, List.cons_append, value_arr F f d 91 _ (by omega) (by decide) (by decide), ← List.cons_append, ← ht]
        cases f with
        | zero => rfl
        | succ f => rw [elems, ih f (d + 1) (93 :: r) (by omega)]; rfl

/-- Values nested more than 10000 deep are written but cannot be read. -/
theorem C23_too_deep (F : FloatCodec) (k : Nat) (h : maxDepth ≤ k) :
    (writer F { value := nest k } []).1 = none ∧
    ∃ x st, reader F { rest := writeAll F [{ value := nest k }] } = (.fail (.other x), st) := by
  have hok : jsonOK (nest k) = true := by
    clear h
    induction k with
    | zero => rfl
    | succ k ih => simp [nest, jsonOK, jsonOKL, ih]
  have hnum : NumsOK F (nest k) := by
    clear h hok
    induction k with
    | zero => simp [nest, NumsOK, NumsOKL]
    | succ k ih => simp [nest, NumsOK, NumsOKL, ih]
  refine ⟨by simp [writer, hok], b!"json", { entriesRead := 0, rest := [] }, ?_⟩
  have h1 : readLine (enc F (nest k) ++ [10]) = some (enc F (nest k) ++ [10], []) := readLine_line (enc_nl F _ hnum) []
  have h2 : unmarshal F (enc F (nest k) ++ [10]) = none := by
    unfold unmarshal
    rw [value_too_deep F k _ 0 [10] (by omega)]
    rfl
  simp [reader, writeAll, writer, hok, h1, h2]

/-- A reader needs a schema whose top level is an array; a writer takes any schema. -/
theorem C23_opens (schema : Option (List (Bytes × Val))) :
    (readerOpens schema = true ↔ ∃ m, schema = some m ∧ mapGet m b!"type" = some (.str b!"array")) ∧
    (writerOpens schema = true ↔ schema ≠ none) := by
  constructor
  · cases schema with
    | none => simp [readerOpens]
    | some m =>
      simp only [readerOpens, Streams.getTopLevelType]
      constructor
      · intro h
        refine ⟨m, rfl, ?_⟩
        split at h
        · rename_i t ht
          split at h
          · rename_i e; rw [ht, e]
          · split at h <;> simp at h
        · simp at h
      · rintro ⟨m', hm, h⟩
        cases hm
        simp [h]
  · cases schema <;> simp [writerOpens]

/-- **C23**, which lines are read: a line (with its newline) is read exactly if it is one JSON text of RFC 8259, nested at most 10000 deep, with
numbers in the range of float64; the value is the one it denotes. -/
theorem C23_lines (F : FloatCodec) (n : Int) (l r : Bytes) (hl : ∀ c ∈ l, c ≠ 10) (v : Val) :
    reader F { entriesRead := n, rest := l ++ 10 :: r } = (.entry { index := n, value := v }, { entriesRead := n + 1, rest := r }) ↔
    ∃ (w t w' : Bytes) (T : JsonG.Tree), l ++ [10] = w ++ (t ++ w') ∧ JsonG.WS w ∧ JsonG.WS w' ∧ JsonG.Spells T t ∧ T.depth ≤ 10000 ∧
      plain F T = some v := by
  have := unmarshal_iff F (l ++ [10]) v
  rw [show maxDepth = 10000 from rfl] at this
  rw [← this]
  simp only [reader, readLine_line hl]
  cases hu : unmarshal F (l ++ [10]) with
  | none => simp
  | some x => simp

/-! examples -/
/-- a float codec good enough for examples: 1.5 and 2.5 -/
def exF : FloatCodec where
  fmt x := if x = 0x3FF8000000000000 then b!"1.5" else b!"2.5"
  parse s := if s = b!"1.5" then some 0x3FF8000000000000 else if s = b!"2.5" then some 0x4004000000000000 else if s = b!"7" then some 0x401C000000000000 else none

example : writeAll exF [{ value := .str b!"a\nb" }, { value := .arr [.int 7, .null] }] = b!"\"a\\nb\"\n[7,null]\n" := by decide +kernel
example : (reader exF { rest := b!"[1.5,{\"a\":7}]\nnul\ntrue" }).1 = .entry { index := 0, value := .arr [.f64 0x3FF8000000000000, .obj [(b!"a", .f64 0x401C000000000000)]] } := by decide +kernel
example : (reader exF (reader exF { rest := b!"[1.5]\nnul\ntrue" }).2).1 = .fail (.other b!"json") := by decide +kernel
example : (reader exF (reader exF (reader exF { rest := b!"[1.5]\nnul\ntrue" }).2).2).1 = .fail .eof := by decide +kernel
example : unmarshal exF b!" {\"k\" : \"\\ud83d\\ude00\\u00e9\", \"k2\":[ ] } " = some (.obj [(b!"k", .str [0xF0, 0x9F, 0x98, 0x80, 0xC3, 0xA9]), (b!"k2", .arr [])]) := by decide +kernel
example : unmarshal exF b!"[1.5,]" = none ∧ unmarshal exF b!"01" = none ∧ unmarshal exF b!"\"\\x\"" = none ∧ unmarshal exF b!"7 7" = none := by decide +kernel

end Verif.Ndjson
