import Verif.Model.Preview
import Verif.Props.Convert
/-
C40: previews.
-/
set_option autoImplicit false
namespace Verif.Preview
open Streams

/-! ## Rows -/

/-- what a copy of at most `lim` entries leaves in a writer: the entries up to the limit, the first read failure of any kind, or
the first entry refused -/
def Shown {σ τ : Type} (rd : Reader σ) (w : Writer τ) (lim : Nat) (s : σ) (t t' : τ) : Prop :=
  ∃ es s', Yields rd s es s' ∧ es.length ≤ lim ∧
    ((Accepts w t es t' ∧ (es.length = lim ∨ ∃ x s'', rd s' = (.fail x, s''))) ∨
      ∃ pre e t₁ x, es = pre ++ [e] ∧ Accepts w t pre t₁ ∧ w e t₁ = (some x, t'))

theorem copy_page {σ τ : Type} (rd : Reader σ) (w : Writer τ) (lim : Nat) (s : σ) (t : τ) :
    ∃ r p t', copy (paged rd) w (lim + 1) ⟨0, lim, s⟩ t = some (r, p, t') ∧ Shown rd w lim s t t' := by
  induction lim generalizing s t with
  | zero =>
    refine ⟨_, _, t, by simp [copy, paged]; exact ⟨rfl, rfl⟩, [], s, .nil s, Nat.le_refl _, .inl ⟨.nil t, .inl rfl⟩⟩
  | succ lim ih =>
    have hp : paged rd ⟨0, ((lim + 1 : Nat) : Int), s⟩ = ((rd s).1, ⟨0, (lim : Int), (rd s).2⟩) := by
      have h1 : ¬ (((lim + 1 : Nat) : Int) = 0) := by omega
      have h2 : ((lim + 1 : Nat) : Int) - 1 = lim := by omega
      unfold paged
      rw [if_neg (by simp), if_neg h1, h2]
    cases hr : rd s with
    | mk a s₁ =>
      rw [hr] at hp
      cases a with
      | fail x =>
        have hsh : Shown rd w (lim + 1) s t t := ⟨[], s, .nil s, by simp, .inl ⟨.nil t, .inr ⟨x, s₁, hr⟩⟩⟩
        cases x with
        | eof => exact ⟨_, _, t, by rw [copy, hp], hsh⟩
        | other y => exact ⟨_, _, t, by rw [copy, hp], hsh⟩
      | entry e =>
        cases hw : w e t with
        | mk b t₁ =>
          cases b with
          | some x =>
            exact ⟨.writeErr x, ⟨0, lim, s₁⟩, t₁, by rw [copy, hp]; simp only [hw],
              [e], s₁, .cons hr (.nil _), by simp, .inr ⟨[], e, t, x, rfl, .nil t, hw⟩⟩
          | none =>
            obtain ⟨r, p, t', hc, es, s', hy, hl, h⟩ := ih s₁ t₁
            refine ⟨r, p, t', by rw [copy, hp]; simp only [hw]; exact hc, e :: es, s', .cons hr hy, by simp; omega, ?_⟩
            rcases h with ⟨ha, h⟩ | ⟨pre, e', t₂, x, rfl, ha, h⟩
            · exact .inl ⟨.cons hw ha, by simpa using h⟩
            · exact .inr ⟨e :: pre, e', t₂, x, rfl, .cons hw ha, h⟩

theorem Accepts.det {τ : Type} {w : Writer τ} {t t₁ t₂ : τ} {es : List Entry} (h₁ : Accepts w t es t₁) (h₂ : Accepts w t es t₂) : t₁ = t₂ := by
  induction h₁ with
  | nil t => cases h₂; rfl
  | cons h _ ih =>
    cases h₂ with
    | cons h' h2 =>
      rw [h] at h'; simp only [Prod.mk.injEq, true_and] at h'
      subst h'; exact ih h2

/-- there is one such run -/
theorem Shown.det {σ τ : Type} {rd : Reader σ} {w : Writer τ} {lim : Nat} {s : σ} {t t₁ t₂ : τ} (h₁ : Shown rd w lim s t t₁) (h₂ : Shown rd w lim s t t₂) :
    t₁ = t₂ := by
  induction lim generalizing s t with
  | zero =>
    obtain ⟨es, s', hy, hl, h⟩ := h₁
    obtain ⟨es2, s2, hy2, hl2, h2⟩ := h₂
    have e1 : es = [] := List.length_eq_zero_iff.mp (by omega)
    have e2 : es2 = [] := List.length_eq_zero_iff.mp (by omega)
    subst e1 e2
    rcases h with ⟨ha, _⟩ | ⟨pre, e, t₁, x, h, _⟩
    · rcases h2 with ⟨ha2, _⟩ | ⟨pre, e, t₁, x, h, _⟩
      · exact Accepts.det ha ha2
      · simp at h
    · simp at h
  | succ lim ih =>
    obtain ⟨es, s', hy, hl, h⟩ := h₁
    obtain ⟨es2, s2, hy2, hl2, h2⟩ := h₂
    cases hy with
    | nil =>
      cases hy2 with
      | nil =>
        rcases h with ⟨ha, _⟩ | ⟨pre, e, t₁, x, h, _⟩
        · rcases h2 with ⟨ha2, _⟩ | ⟨pre, e, t₁, x, h, _⟩
          · exact Accepts.det ha ha2
          · simp at h
        · simp at h
      | cons hr _ =>
        rcases h with ⟨_, hh | ⟨x, s'', hh⟩⟩ | ⟨pre, e, t₁, x, hh, _⟩
        · simp at hh
        · rw [hr] at hh; simp at hh
        · simp at hh
    | @cons _ sa _ e es hr hy =>
      cases hy2 with
      | nil =>
        rcases h2 with ⟨_, hh | ⟨x, s'', hh⟩⟩ | ⟨pre, e, t₁, x, hh, _⟩
        · simp at hh
        · rw [hr] at hh; simp at hh
        · simp at hh
      | @cons _ sb _ e' es2 hr2 hy2 =>
        rw [hr] at hr2; simp only [Prod.mk.injEq, RRes.entry.injEq] at hr2
        obtain ⟨rfl, rfl⟩ := hr2
        cases hw : w e t with
        | mk b tb =>
          have key : ∀ {es : List Entry} {s' : σ} {tz : τ}, Yields rd sa es s' → (e :: es).length ≤ lim + 1 →
              ((Accepts w t (e :: es) tz ∧ ((e :: es).length = lim + 1 ∨ ∃ x s'', rd s' = (.fail x, s''))) ∨
                ∃ pre e' t₁ x, e :: es = pre ++ [e'] ∧ Accepts w t pre t₁ ∧ w e' t₁ = (some x, tz)) →
              (b = none ∧ Shown rd w lim sa tb tz) ∨ (b ≠ none ∧ tz = tb) := by
            intro es s' tz hy hl h
            simp only [List.length_cons] at hl
            rcases h with ⟨ha, h⟩ | ⟨pre, e', t₁, x, he, ha, h⟩
            · cases ha with
              | cons hw' ha =>
                rw [hw] at hw'; simp only [Prod.mk.injEq] at hw'
                obtain ⟨rfl, rfl⟩ := hw'
                exact .inl ⟨rfl, es, s', hy, by omega, .inl ⟨ha, by simpa using h⟩⟩
            · cases pre with
              | nil =>
                simp only [List.nil_append, List.cons.injEq] at he
                obtain ⟨rfl, rfl⟩ := he
                cases ha
                rw [hw] at h; simp only [Prod.mk.injEq] at h
                exact .inr ⟨by rw [h.1]; simp, h.2.symm⟩
              | cons p pre =>
                simp only [List.cons_append, List.cons.injEq] at he
                obtain ⟨rfl, rfl⟩ := he
                cases ha with
                | cons hw' ha =>
                  rw [hw] at hw'; simp only [Prod.mk.injEq] at hw'
                  obtain ⟨rfl, rfl⟩ := hw'
                  exact .inl ⟨rfl, _, s', hy, by omega, .inr ⟨pre, e', t₁, x, rfl, ha, h⟩⟩
          rcases key hy hl h with ⟨hb, k⟩ | ⟨hb, k⟩
          · rcases key hy2 hl2 h2 with ⟨_, k2⟩ | ⟨hb2, _⟩
            · exact ih k k2
            · exact absurd hb hb2
          · rcases key hy2 hl2 h2 with ⟨hb2, _⟩ | ⟨_, k2⟩
            · exact absurd hb2 hb
            · rw [k, k2]

/-- C40: the preview of a body is the JSON text of the entries its reader gives, up to the hundredth, the first that cannot be
read, or the first that cannot be written; there is an error exactly without a top level type or a reader. -/
theorem C40_body_iff {σ : Type} (E : Env σ) (st : Doc.Structure) (c : Content) (data : Bytes) :
    convertBody E st c = some data ↔
      ∃ tl s t, getTopLevelType st.schema = some tl ∧ E.openReader st c = some s ∧
        Shown (E.read st) (jsonWriter E.F tl []) 100 s {} t ∧ data = Json.close tl [] t := by
  unfold convertBody
  cases htl : getTopLevelType st.schema with
  | none => simp
  | some tl =>
    cases ho : E.openReader st c with
    | none => simp
    | some s =>
      obtain ⟨r, p, t', hc, hs⟩ := copy_page (E.read st) (jsonWriter E.F tl []) 100 s {}
      have hcv : convert (E.read st) (jsonWriter E.F tl []) (fun t => some (Json.close tl [] t)) maxRows 0 false (maxRows + 1) s {}
          = some (some (Json.close tl [] t')) := by
        simp only [convert, Bool.false_eq_true, if_false]
        rw [show copy (paged (E.read st)) (jsonWriter E.F tl []) (maxRows + 1) ⟨0, (maxRows : Int), s⟩ {} = some (r, p, t') from hc]
        rfl
      simp only [hcv, Option.join_some, Option.some.injEq]
      constructor
      · rintro rfl
        exact ⟨tl, s, t', rfl, rfl, hs, rfl⟩
      · rintro ⟨_, _, t, rfl, rfl, hs', rfl⟩
        rw [Shown.det hs hs']

/-- When the writer takes the first hundred, these are shown – whatever ends the reading, so a damaged body previews the entries
before the damage, without an error. -/
theorem C40_rows {σ : Type} (E : Env σ) (st : Doc.Structure) (c : Content) (tl : TopLevel) (s s' : σ) (es : List Entry) (x : RErr)
    (htl : getTopLevelType st.schema = some tl) (ho : E.openReader st c = some s) (hd : Drains (E.read st) s es x s')
    (ha : ∀ r ∈ (Json.writeAll E.F tl [] (es.take 100)).1, r = .ok ()) :
    convertBody E st c = some (Json.writeAll E.F tl [] (es.take 100)).2 := by
  rw [C40_body_iff]
  refine ⟨tl, s, _, htl, ho, ?_, rfl⟩
  have hacc := json_accepts E.F tl [] (es.take 100) {} ha
  obtain ⟨s₁, hy, hf⟩ := hd
  by_cases hl : es.length ≤ 100
  · rw [List.take_of_length_le hl] at hacc ⊢
    exact ⟨es, s₁, hy, hl, .inl ⟨hacc, .inr ⟨x, s', hf⟩⟩⟩
  · rw [← List.take_append_drop 100 es] at hy
    obtain ⟨s₂, h1, _⟩ := hy.split
    exact ⟨_, s₂, h1, by simp; omega, .inl ⟨hacc, .inl (by simp; omega)⟩⟩

/-- End to end for JSON: of every well-formed array text of supported values, the preview is a text that reads back as the first
hundred elements. -/
theorem C40_json_array (E : Env Json.RState) (st : Doc.Structure) (c : Content) (l : List Val)
    (htl : getTopLevelType st.schema = some .array) (ho : E.openReader st c = some { rest := c.text })
    (hr : E.read st = jsonReader E.F .array) (hdoc : JsonG.Doc E.F (.arr l) c.text) (hs : ∀ v ∈ l.take 100, Json.Supported E.F v) :
    ∃ data, convertBody E st c = some data ∧ Json.readAll E.F .array data = (Json.indexed 0 (l.take 100), .eof) := by
  have h1 := Json.C19_array_delivered E.F l c.text hdoc
  obtain ⟨st', hd⟩ := json_drains E.F .array _ _ _ h1
  have hm : ((Json.indexed 0 l).take 100).map (·.value) = l.take 100 := by
    rw [List.map_take, map_value_indexed]
  have h2 := Json.C16_array_roundtrip E.F [] Json.ws_nil ((Json.indexed 0 l).take 100)
    (by
      intro e he
      have : e.value ∈ ((Json.indexed 0 l).take 100).map (·.value) := List.mem_map_of_mem he
      rw [hm] at this
      exact hs _ this)
  rw [← hr] at hd
  refine ⟨_, C40_rows E st c .array _ st' _ _ htl ho hd h2.1, ?_⟩
  have := h2.2
  rw [hm] at this
  exact this

theorem loop_keys (F : FloatCodec) (es : List Entry) (w : Json.WState) (h : ∀ r ∈ (Json.writeLoop F .object [] es w).1, r = .ok ()) :
    ∀ k, k ∈ (Json.writeLoop F .object [] es w).2.keysWritten ↔ k ∈ w.keysWritten ∨ k ∈ es.map (·.key) := by
  induction es generalizing w with
  | nil => simp [Json.writeLoop]
  | cons e es ih =>
    intro k
    simp only [Json.writeLoop, List.mem_cons, forall_eq_or_imp] at h ⊢
    rw [ih _ h.2]
    have : (Json.writeEntry F .object [] e w).2.keysWritten = e.key :: w.keysWritten := by
      have h1 := h.1
      unfold Json.writeEntry Json.valBytes at h1 ⊢
      by_cases h2 : e.key = []
      · simp [h2] at h1
      · by_cases h3 : e.key ∈ w.keysWritten
        · simp [h2, h3] at h1
        · by_cases h4 : jsonOK e.value = true <;> simp [h2, h3, h4]
    rw [this]
    simp only [List.mem_cons, List.map_cons]
    grind

theorem loop_rows (F : FloatCodec) (tl : TopLevel) (es : List Entry) (w : Json.WState) :
    (Json.writeLoop F tl [] es w).2.rowsWritten = w.rowsWritten + es.length := by
  induction es generalizing w with
  | nil => rfl
  | cons e es ih =>
    have : (Json.writeEntry F tl [] e w).2.rowsWritten = w.rowsWritten + 1 := by
      unfold Json.writeEntry
      split <;> rfl
    rw [Json.writeLoop, ih, this, List.length_cons]
    omega

/-- The first entry among the first hundred that cannot be written ends the preview, without an error and without leaving anything: the
preview is the text of the entries before it. -/
theorem C40_stops {σ : Type} (E : Env σ) (st : Doc.Structure) (c : Content) (tl : TopLevel) (s s' : σ) (pre : List Entry) (e : Entry) (x : Json.WErr)
    (htl : getTopLevelType st.schema = some tl) (ho : E.openReader st c = some s) (hy : Yields (E.read st) s (pre ++ [e]) s') (hlen : pre.length < 100)
    (ha : ∀ r ∈ (Json.writeAll E.F tl [] pre).1, r = .ok ())
    (hx : (Json.writeEntry E.F tl [] e (Json.writeLoop E.F tl [] pre {}).2).1 = .error x) :
    convertBody E st c = some (Json.writeAll E.F tl [] pre).2 := by
  rw [C40_body_iff]
  have hacc := json_accepts E.F tl [] pre {} ha
  refine ⟨tl, s, (Json.writeEntry E.F tl [] e (Json.writeLoop E.F tl [] pre {}).2).2, htl, ho,
    ⟨pre ++ [e], s', hy, by simp; omega, .inr ⟨pre, e, _, b!"json", rfl, hacc, ?_⟩⟩, ?_⟩
  · unfold jsonWriter
    rcases hw : Json.writeEntry E.F tl [] e (Json.writeLoop E.F tl [] pre {}).2 with ⟨a, b⟩
    rw [hw] at hx
    simp only at hx
    subst hx
    rfl
  · have hrows := loop_rows E.F tl pre {}
    rw [Json.writeAll]
    cases pre with
    | nil =>
      simp only [Json.writeLoop] at hx ⊢
      unfold Json.writeEntry at hx ⊢
      split at hx
      · cases hx
      · rfl
    | cons p ps =>
      generalize (Json.writeLoop E.F tl [] (p :: ps) {}).2 = w at hrows hx ⊢
      have hne : w.rowsWritten ≠ 0 := by rw [hrows]; simp
      unfold Json.writeEntry at hx ⊢
      split at hx
      · cases hx
      · simp [Json.close, Json.opening, hne]

/-- A member whose key is empty or appeared before ends the preview of a JSON object: it reads back as the members before that one. -/
theorem C40_object_bad_key (E : Env Json.RState) (st : Doc.Structure) (c : Content) (pre post : List (Bytes × Val)) (k : Bytes) (v : Val)
    (htl : getTopLevelType st.schema = some .object) (ho : E.openReader st c = some { rest := c.text })
    (hr : E.read st = jsonReader E.F .object) (hread : Json.readAll E.F .object c.text = (Json.keyed (pre ++ (k, v) :: post), .eof))
    (hlen : pre.length < 100) (hs : ∀ p ∈ pre, Json.Supported E.F p.2 ∧ p.1 ≠ [] ∧ ValidUtf8 p.1) (hnd : (pre.map (·.1)).Nodup)
    (hk : k = [] ∨ k ∈ pre.map (·.1)) :
    ∃ data, convertBody E st c = some data ∧ Json.readAll E.F .object data = (Json.keyed pre, .eof) := by
  obtain ⟨st', s₁, hy, _⟩ := json_drains E.F .object _ _ _ hread
  have hm : (Json.keyed pre).map (fun e => (e.key, e.value)) = pre := by simp [Json.keyed, Function.comp_def]
  have hmem : ∀ e ∈ Json.keyed pre, (e.key, e.value) ∈ pre := by
    intro e he
    have := List.mem_map_of_mem (f := fun e : Entry => (e.key, e.value)) he
    rwa [hm] at this
  have h2 := Json.C16_object_roundtrip E.F [] Json.ws_nil (Json.keyed pre) (fun e he => (hs _ (hmem e he)).1)
    (fun e he => (hs _ (hmem e he)).2) (by simpa [Json.keyed, Function.comp_def] using hnd)
  have hsplit : Json.keyed (pre ++ (k, v) :: post) = (Json.keyed pre ++ [{ key := k, value := v }]) ++ Json.keyed post := by simp [Json.keyed]
  rw [hsplit] at hy
  have hsp : ∀ (a b : List Entry) (s s' : Json.RState), Yields (jsonReader E.F .object) s (a ++ b) s' → ∃ t, Yields (jsonReader E.F .object) s a t := by
    intro a
    induction a with
    | nil => exact fun _ s _ _ => ⟨s, .nil s⟩
    | cons e a ih =>
      intro b s s' h
      cases h with
      | cons h1 h2 =>
        obtain ⟨t, ht⟩ := ih _ _ _ h2
        exact ⟨t, .cons h1 ht⟩
  obtain ⟨t, ht⟩ := hsp _ _ _ _ hy
  have hkeys := loop_keys E.F (Json.keyed pre) {} h2.1 k
  have hx : ∃ x, (Json.writeEntry E.F .object [] { key := k, value := v } (Json.writeLoop E.F .object [] (Json.keyed pre) {}).2).1 = .error x := by
    unfold Json.writeEntry Json.valBytes
    by_cases h0 : k = []
    · exact ⟨.emptyKey, by simp [h0]⟩
    · have hin : k ∈ (Json.writeLoop E.F .object [] (Json.keyed pre) {}).2.keysWritten := by
        rw [hkeys]
        right
        simpa [Json.keyed, Function.comp_def] using hk.resolve_left h0
      exact ⟨.dupKey, by simp [h0, hin]⟩
  obtain ⟨x, hx⟩ := hx
  rw [← hr] at ht
  refine ⟨_, C40_stops E st c .object _ t (Json.keyed pre) _ x htl ho ht (by simpa [Json.keyed] using hlen) h2.1 hx, ?_⟩
  rw [h2.2, hm]

/-- End to end for JSON objects: of every well-formed object text whose first hundred members are supported and have different keys that
are not empty, the preview is a text that reads back as these members, in the order of the text. -/
theorem C40_json_object (E : Env Json.RState) (st : Doc.Structure) (c : Content) (m : List (Bytes × Val))
    (htl : getTopLevelType st.schema = some .object) (ho : E.openReader st c = some { rest := c.text })
    (hr : E.read st = jsonReader E.F .object) (hdoc : JsonG.Doc E.F (.obj m) c.text) :
    ∃ ms, mapOf ms = m ∧ Json.readAll E.F .object c.text = (Json.keyed ms, .eof) ∧
      ((∀ p ∈ ms.take 100, Json.Supported E.F p.2 ∧ p.1 ≠ [] ∧ ValidUtf8 p.1) → ((ms.take 100).map (·.1)).Nodup →
        ∃ data, convertBody E st c = some data ∧ Json.readAll E.F .object data = (Json.keyed (ms.take 100), .eof)) := by
  obtain ⟨ms, hms, h1⟩ := Json.C19_object_delivered E.F m c.text hdoc
  refine ⟨ms, hms, h1, fun hs hnd => ?_⟩
  obtain ⟨st', hd⟩ := json_drains E.F .object _ _ _ h1
  have hk : (Json.keyed ms).take 100 = Json.keyed (ms.take 100) := by simp [Json.keyed]
  have hm : (Json.keyed (ms.take 100)).map (fun e => (e.key, e.value)) = ms.take 100 := by simp [Json.keyed, Function.comp_def]
  have hmem : ∀ e ∈ Json.keyed (ms.take 100), (e.key, e.value) ∈ ms.take 100 := by
    intro e he
    rw [← hm]
    exact List.mem_map_of_mem he
  have h2 := Json.C16_object_roundtrip E.F [] Json.ws_nil (Json.keyed (ms.take 100)) (fun e he => (hs _ (hmem e he)).1)
    (fun e he => (hs _ (hmem e he)).2) (by simpa [Json.keyed, Function.comp_def] using hnd)
  rw [← hr] at hd
  refine ⟨_, C40_rows E st c .object _ st' _ _ htl ho hd (by rw [hk]; exact h2.1), ?_⟩
  rw [hk, h2.2, hm]

/-! ## The dataset -/

/-- text shown of a readme -/
def Excerpt (full shown : Bytes) : Prop :=
  (full.length < 997 → shown = full) ∧ (997 ≤ full.length → shown = full.take 997 ++ b!"...")

/-- the script file can be read as far as needed -/
def Readable (c : Content) : Prop := c.fails = false ∨ 997 ≤ c.text.length

theorem body_frame {σ : Type} (E : Env σ) (ds : Doc.Dataset) (w : World) :
    ∃ ds', (body E ds w).ds = some ds' ∧ ds' = { ds with bodyFile := ds'.bodyFile } := by
  unfold body
  split
  · exact ⟨ds, rfl, rfl⟩
  · split
    · exact ⟨ds, rfl, rfl⟩
    · split
      · exact ⟨ds, rfl, rfl⟩
      · exact ⟨_, rfl, rfl⟩

theorem body_ok_iff {σ : Type} (E : Env σ) (ds : Doc.Dataset) (w : World) (f : Nat) (hf : ds.bodyFile = some f) :
    ((body E ds w).out = .ok ↔ ∃ st data, ds.structure_ = some st ∧ convertBody E st (w.content f) = some data) ∧
    (∀ data, (body E ds w).raw = some data ↔ ∃ st, ds.structure_ = some st ∧ convertBody E st (w.content f) = some data) ∧
    ((body E ds w).out = .panic ↔ ds.structure_ = none) ∧
    ((body E ds w).out = .ok → ∃ ds' g, (body E ds w).ds = some ds' ∧ ds'.bodyFile = some g ∧ (body E ds w).w.content g = w.content f) := by
  unfold body
  rw [hf]
  cases hs : ds.structure_ with
  | none => simp
  | some st =>
    simp only
    cases hc : convertBody E st (w.content f) with
    | none => simp [hc]
    | some d =>
      refine ⟨by simp [hc], by simp [hc], by simp, fun _ => ⟨_, _, rfl, rfl, ?_⟩⟩
      simp [reopen, List.take_append_drop]

/-- no dataset, and no empty dataset, has a preview; emptiness does not look at the body file -/
theorem C40_refused {σ : Type} (E : Env σ) (w : World) :
    (create E none w).out = .error .nilDataset ∧
      ∀ ds : Doc.Dataset, ((create E (some ds) w).out = .error .emptyDataset ↔ ds.isEmpty = true) := by
  refine ⟨rfl, fun ds => ⟨fun h => ?_, fun h => by simp [create, h]⟩⟩
  by_cases he : ds.isEmpty = true
  · exact he
  · exfalso
    have hb : ∀ (ds : Doc.Dataset) (w : World), (body E ds w).out ≠ .error .emptyDataset := by
      intro ds w
      unfold body
      repeat' split
      all_goals simp
    simp only [create, he, Bool.false_eq_true, if_false] at h
    split at h
    · exact hb _ _ h
    · split at h
      · simp at h
      · exact hb _ _ h

/-- so a dataset that is nothing but an open body file has none -/
theorem C40_body_file_alone_refused {σ : Type} (E : Env σ) (w : World) (f : Nat) :
    (create E (some { bodyFile := some f }) w).out = .error .emptyDataset := (C40_refused E w).2 _ |>.mpr rfl

theorem create_body {σ : Type} (E : Env σ) (ds : Doc.Dataset) (w : World) (he : ds.isEmpty = false)
    (h : ∀ r, ds.readme = some r → r.scriptFile = none) : create E (some ds) w = body E ds w := by
  simp only [create, he, Bool.false_eq_true, if_false]
  cases hr : ds.readme with
  | none => rfl
  | some r =>
    have := h r hr
    simp only [readme, this]
    congr 1
    cases ds; simp at hr; subst hr; rfl

theorem create_readme {σ : Type} (E : Env σ) (ds : Doc.Dataset) (w : World) (r : Doc.Readme) (f : Nat) (he : ds.isEmpty = false)
    (hr : ds.readme = some r) (hf : r.scriptFile = some f) (hc : Readable (w.content f)) :
    ∃ text, Excerpt (w.content f).text text ∧
      create E (some ds) w = body E { ds with readme := some { r with text := text, scriptFile := some w.next } } (reopen 997 f w).2 := by
  have hcond : ¬ ((w.content f).text.length < maxReadme ∧ (w.content f).fails = true) := by
    rintro ⟨h1, h2⟩
    rcases hc with h | h
    · rw [h] at h2; simp at h2
    · have : maxReadme = 997 := rfl
      omega
  refine ⟨if maxReadme ≤ ((w.content f).text.take maxReadme).length then (w.content f).text.take maxReadme ++ b!"..." else (w.content f).text.take maxReadme, ?_, ?_⟩
  · constructor
    · intro h
      rw [if_neg (by simp [maxReadme]; omega), List.take_of_length_le (by simp [maxReadme]; omega)]
    · intro h
      rw [if_pos (by simp [maxReadme]; omega)]; rfl
  · simp only [create, he, Bool.false_eq_true, if_false, hr, readme, hf]
    rw [if_neg hcond]
    rfl

/-- C40: a preview's readme is an excerpt of its script file, at most 1000 bytes, and the script file still reads as before. -/
theorem C40_readme {σ : Type} (E : Env σ) (ds : Doc.Dataset) (w : World) (r : Doc.Readme) (f : Nat) (he : ds.isEmpty = false)
    (hr : ds.readme = some r) (hf : r.scriptFile = some f) (hc : Readable (w.content f)) (hb : ∀ b : Nat, ds.bodyFile = some b → b < w.next) :
    ∃ ds' text g, (create E (some ds) w).ds = some ds' ∧ Excerpt (w.content f).text text ∧ text.length ≤ 1000 ∧
      ds'.readme = some { r with text := text, scriptFile := some g } ∧ (create E (some ds) w).w.content g = w.content f := by
  obtain ⟨text, hx, hcr⟩ := create_readme E ds w r f he hr hf hc
  obtain ⟨ds', h1, h2⟩ := body_frame E { ds with readme := some { r with text := text, scriptFile := some w.next } } (reopen 997 f w).2
  refine ⟨ds', text, w.next, by rw [hcr]; exact h1, hx, ?_, by rw [h2], ?_⟩
  · by_cases hl : (w.content f).text.length < 997
    · rw [hx.1 hl]; omega
    · rw [hx.2 (by omega)]
      simp only [List.length_append, List.length_take]
      have : (b!"...").length = 3 := rfl
      omega
  · rw [hcr]
    have hn : (reopen 997 f w).2.content w.next = w.content f := by simp [reopen, List.take_append_drop]
    rw [← hn]
    unfold body
    cases hbf : ds.bodyFile with
    | none => rfl
    | some b =>
      have hlt := hb b hbf
      have hne : w.next ≠ b := (Nat.ne_of_lt hlt).symm
      simp only
      cases hs : ds.structure_ with
      | none => rfl
      | some st =>
        simp only
        have hnn : w.next ≠ (reopen 997 f w).2.next := by simp [reopen]
        generalize (reopen 997 f w).2 = w' at *
        cases convertBody E st (w'.content b) with
        | none => simp [consume, hne]
        | some d => simp [reopen, hne, hnn]

/-- "The ellipsis is added iff text was cut" is false: a readme of exactly 997 bytes is shown whole, and with an ellipsis; one of 998
or 999 bytes is cut, and the excerpt is longer than what it abbreviates. -/
theorem C40_ellipsis_without_cut (full shown : Bytes) (h : Excerpt full shown) :
    (full.length = 997 → shown = full ++ b!"...") ∧ (997 ≤ full.length → full.length < 1000 → full.length < shown.length) := by
  refine ⟨fun e => by rw [h.2 (by omega), List.take_of_length_le (by omega)], fun h1 h2 => ?_⟩
  rw [h.2 h1, List.length_append, List.length_take]
  have h3 : (b!"...").length = 3 := rfl
  omega

example : Excerpt (List.replicate 997 65) (List.replicate 997 65 ++ b!"...") := by
  refine ⟨fun h => absurd h (by rw [List.length_replicate]; omega), fun _ => ?_⟩
  rw [List.take_of_length_le (by rw [List.length_replicate]; omega)]

/-- a readme without an open script file keeps its text, however long -/
theorem C40_readme_text_kept {σ : Type} (E : Env σ) (ds : Doc.Dataset) (w : World) (r : Doc.Readme) (he : ds.isEmpty = false)
    (hr : ds.readme = some r) (hf : r.scriptFile = none) :
    ∃ ds', (create E (some ds) w).ds = some ds' ∧ ds'.readme = some r := by
  rw [create_body E ds w he (by intro r' h'; rw [hr] at h'; cases h'; exact hf)]
  obtain ⟨ds', h1, h2⟩ := body_frame E ds w
  exact ⟨ds', h1, by rw [h2]; exact hr⟩

/-- a script file that fails within the first 997 bytes: no preview, and what was read is lost -/
theorem C40_readme_unreadable {σ : Type} (E : Env σ) (ds : Doc.Dataset) (w : World) (r : Doc.Readme) (f : Nat) (he : ds.isEmpty = false)
    (hr : ds.readme = some r) (hf : r.scriptFile = some f) (hc : ¬ Readable (w.content f)) :
    (create E (some ds) w).out = .error .readme ∧ (create E (some ds) w).ds = some ds ∧
      ((create E (some ds) w).w.content f).text = [] := by
  have hcond : (w.content f).text.length < maxReadme ∧ (w.content f).fails = true := by
    unfold Readable at hc
    have : maxReadme = 997 := rfl
    cases hfl : (w.content f).fails with
    | true => exact ⟨by simp [hfl] at hc; omega, rfl⟩
    | false => simp [hfl] at hc
  simp only [create, he, Bool.false_eq_true, if_false, hr, readme, hf]
  rw [if_pos hcond]
  refine ⟨rfl, rfl, ?_⟩
  simp only [consume, if_pos]
  exact List.drop_of_length_le (by omega)

/-- the readme part of a preview: the dataset and world the body is taken from -/
def AfterReadme (ds : Doc.Dataset) (w : World) (ds₁ : Doc.Dataset) (w₁ : World) : Prop :=
  (∃ r, ds₁ = { ds with readme := r }) ∧
    ((∀ r, ds.readme = some r → r.scriptFile = none) → ds₁ = ds ∧ w₁ = w) ∧
    ∀ r f, ds.readme = some r → r.scriptFile = some f → Readable (w.content f) ∧ ∀ g, g ≠ f → g < w.next → w₁.content g = w.content g

theorem create_cases {σ : Type} (E : Env σ) (ds : Doc.Dataset) (w : World) (he : ds.isEmpty = false)
    (hne : (create E (some ds) w).out ≠ .error .readme) :
    ∃ ds₁ w₁, AfterReadme ds w ds₁ w₁ ∧ create E (some ds) w = body E ds₁ w₁ := by
  by_cases h : ∀ r, ds.readme = some r → r.scriptFile = none
  · refine ⟨ds, w, ⟨⟨ds.readme, rfl⟩, fun _ => ⟨rfl, rfl⟩, fun r f hr hf => ?_⟩, create_body E ds w he h⟩
    rw [h r hr] at hf; simp at hf
  · obtain ⟨r, h⟩ := Classical.not_forall.mp h
    obtain ⟨hr, hf⟩ := Classical.not_imp.mp h
    obtain ⟨f, hf⟩ := Option.ne_none_iff_exists'.mp hf
    by_cases hc : Readable (w.content f)
    · obtain ⟨text, hx, hcr⟩ := create_readme E ds w r f he hr hf hc
      refine ⟨_, _, ⟨⟨_, rfl⟩, fun h => ?_, fun r' f' hr' hf' => ?_⟩, hcr⟩
      · rw [h r hr] at hf; simp at hf
      · rw [hr] at hr'; cases hr'
        rw [hf] at hf'; cases hf'
        refine ⟨hc, fun g h1 h2 => ?_⟩
        have : g ≠ w.next := Nat.ne_of_lt h2
        simp [reopen, h1, this]
    · exact absurd (C40_readme_unreadable E ds w r f he hr hf hc).1 hne

/-- C40: the dataset given is the one changed and returned; nothing but the readme's text and the two open files (and the body)
is changed, also on errors. -/
theorem C40_frame {σ : Type} (E : Env σ) (ds : Doc.Dataset) (w : World) :
    ∃ ds', (create E (some ds) w).ds = some ds' ∧ ds' = { ds with readme := ds'.readme, bodyFile := ds'.bodyFile } ∧
      (ds.readme = none → ds'.readme = none) ∧
      ∀ r, ds.readme = some r → ∃ r', ds'.readme = some r' ∧ r' = { r with text := r'.text, scriptFile := r'.scriptFile } := by
  have hsame : ∀ r, ds.readme = some r → ∃ r', ds.readme = some r' ∧ r' = { r with text := r'.text, scriptFile := r'.scriptFile } := by
    intro r hr
    exact ⟨r, hr, by cases r; rfl⟩
  by_cases he : ds.isEmpty = true
  · exact ⟨ds, by simp [create, he], by cases ds; rfl, id, hsame⟩
  · have he : ds.isEmpty = false := by simpa using he
    cases hr : ds.readme with
    | none =>
      rw [create_body E ds w he (by intro r h; rw [hr] at h; simp at h)]
      obtain ⟨ds', h1, h2⟩ := body_frame E ds w
      refine ⟨ds', h1, ?_, fun _ => by rw [h2]; exact hr, by simp⟩
      rw [h2]
    | some r =>
      refine ?_
      cases hf : r.scriptFile with
      | none =>
        rw [create_body E ds w he (by intro r' h; rw [hr] at h; cases h; exact hf)]
        obtain ⟨ds', h1, h2⟩ := body_frame E ds w
        refine ⟨ds', h1, by rw [h2], by simp, fun r' h' => ⟨r, by rw [h2]; exact hr, ?_⟩⟩
        cases h'; cases r; rfl
      | some f =>
        by_cases hc : Readable (w.content f)
        · obtain ⟨text, _, hcr⟩ := create_readme E ds w r f he hr hf hc
          obtain ⟨ds', h1, h2⟩ := body_frame E { ds with readme := some { r with text := text, scriptFile := some w.next } } (reopen 997 f w).2
          refine ⟨ds', by rw [hcr]; exact h1, ?_, by simp, fun r' h' => ⟨{ r with text := text, scriptFile := some w.next }, by rw [h2], ?_⟩⟩
          · rw [h2]
          · cases h'; rfl
        · have := (C40_readme_unreadable E ds w r f he hr hf hc).2.1
          exact ⟨ds, this, by cases ds; rfl, by simp, fun r' h' => ⟨r, hr, by cases h'; cases r; rfl⟩⟩

theorem not_readme_error {σ : Type} (E : Env σ) (ds : Doc.Dataset) (w : World) (he : ds.isEmpty = false)
    (hok : ∀ r g, ds.readme = some r → r.scriptFile = some g → Readable (w.content g)) : (create E (some ds) w).out ≠ .error .readme := by
  have hb : ∀ (ds : Doc.Dataset) (w : World), (body E ds w).out ≠ .error .readme := by
    intro ds w
    unfold body
    repeat' split
    all_goals simp
  cases hr : ds.readme with
  | none => rw [create_body E ds w he (by intro r h; rw [hr] at h; simp at h)]; exact hb _ _
  | some r =>
    cases hf : r.scriptFile with
    | none => rw [create_body E ds w he (by intro r' h; rw [hr] at h; cases h; exact hf)]; exact hb _ _
    | some f =>
      obtain ⟨_, _, hcr⟩ := create_readme E ds w r f he hr hf (hok r f hr hf)
      rw [hcr]; exact hb _ _

/-- C40: with a body file that is not the readme's, and a readme that can be read, a preview panics exactly without a structure,
and succeeds exactly if the body can be converted; then the body is the converted text, and the body file still reads as
before. -/
theorem C40_body {σ : Type} (E : Env σ) (ds : Doc.Dataset) (w : World) (f : Nat) (he : ds.isEmpty = false) (hf : ds.bodyFile = some f)
    (hlt : f < w.next) (hr : ∀ r, ds.readme = some r → r.scriptFile ≠ some f)
    (hok : ∀ r g, ds.readme = some r → r.scriptFile = some g → Readable (w.content g)) :
    ((create E (some ds) w).out = .panic ↔ ds.structure_ = none) ∧
    ((create E (some ds) w).out = .ok ↔ ∃ st data, ds.structure_ = some st ∧ convertBody E st (w.content f) = some data) ∧
    (∀ data, (create E (some ds) w).raw = some data ↔ ∃ st, ds.structure_ = some st ∧ convertBody E st (w.content f) = some data) ∧
    ((create E (some ds) w).out = .ok → ∃ ds' g, (create E (some ds) w).ds = some ds' ∧ ds'.bodyFile = some g ∧
      (create E (some ds) w).w.content g = w.content f) := by
  obtain ⟨ds₁, w₁, ⟨⟨q, hq⟩, h2, h3⟩, hcr⟩ := create_cases E ds w he (not_readme_error E ds w he hok)
  have hw : w₁.content f = w.content f := by
    by_cases h : ∀ r, ds.readme = some r → r.scriptFile = none
    · rw [(h2 h).2]
    · obtain ⟨r, h⟩ := Classical.not_forall.mp h
      obtain ⟨hr', hf'⟩ := Classical.not_imp.mp h
      obtain ⟨g, hg⟩ := Option.ne_none_iff_exists'.mp hf'
      exact (h3 r g hr' hg).2 f (fun e => hr r hr' (by rw [hg, e])) hlt
  have hb := body_ok_iff E ds₁ w₁ f (by rw [hq]; exact hf)
  rw [hcr]
  rw [show ds₁.structure_ = ds.structure_ by rw [hq], hw] at hb
  exact ⟨hb.2.2.1, hb.1, hb.2.1, hb.2.2.2⟩

/-- without a body file the body is left as it is, however large -/
theorem C40_body_kept {σ : Type} (E : Env σ) (ds : Doc.Dataset) (w : World) (he : ds.isEmpty = false) (hf : ds.bodyFile = none)
    (hok : ∀ r g, ds.readme = some r → r.scriptFile = some g → Readable (w.content g)) :
    (create E (some ds) w).out = .ok ∧ (create E (some ds) w).raw = none ∧ ∃ ds', (create E (some ds) w).ds = some ds' ∧ ds'.body = ds.body := by
  obtain ⟨ds₁, w₁, ⟨⟨q, hq⟩, _, _⟩, hcr⟩ := create_cases E ds w he (not_readme_error E ds w he hok)
  have hf₁ : ds₁.bodyFile = none := by rw [hq]; exact hf
  rw [hcr]
  unfold body
  rw [hf₁]
  exact ⟨rfl, rfl, ds₁, rfl, by rw [hq]⟩

/-! ## Examples -/

/-- JSON bodies -/
def exE : Env Json.RState where
  F := Json.exF
  openReader st c := if st.format = b!"json" then some { rest := c.text } else none
  read st := jsonReader Json.exF ((getTopLevelType st.schema).getD .array)
  used st c := if st.format = b!"json" then c.text.length else 0

def exW : World := { content := fun i => if i = 0 then { text := b!"# hello" } else { text := b!"[1,{\"a\":null},tru]" }, next := 2 }

def exSt : Doc.Structure := { format := b!"json", schema := some [(b!"type", .str b!"array")] }

def exDs : Doc.Dataset := { name := b!"x", readme := some { scriptFile := some 0 }, bodyFile := some 1, structure_ := some exSt }

/-- a damaged body previews without an error -/
example : (create exE (some exDs) exW).out = .ok ∧ (create exE (some exDs) exW).raw = some b!"[1,{\"a\":null}]" ∧
    (create exE (some exDs) exW).ds = some { exDs with readme := some { scriptFile := some 2, text := b!"# hello" }, bodyFile := some 3 } ∧
    (create exE (some exDs) exW).w.content 3 = exW.content 1 ∧ (create exE (some exDs) exW).w.content 1 = { text := [] } := by
  decide +kernel

example : (create exE (some { exDs with structure_ := none }) exW).out = .panic := by decide +kernel

/-- an error after the readme was read: the readme has been changed -/
example : (create exE (some { exDs with structure_ := some { exSt with format := b!"csv" } }) exW).out = .error .convert ∧
    ((create exE (some { exDs with structure_ := some { exSt with format := b!"csv" } }) exW).ds.bind (·.readme)).map (·.text) = some b!"# hello" := by decide +kernel

/-- of 102 rows, a hundred -/
example : (convertBody exE exSt { text := 91 :: ((List.replicate 101 [55, 44]).flatten ++ [55, 93]) }).map
    (fun d => (Json.readAll Json.exF .array d).1.length) = some 100 := by decide +kernel

example : Readable { text := b!"abc" } ∧ ¬ Readable { text := b!"abc", fails := true } := by simp [Readable]

def exObjSt : Doc.Structure := { format := b!"json", schema := some [(b!"type", .str b!"object")] }

/-- members in the order of the text; the third has a key that appeared before -/
example : convertBody exE exObjSt { text := b!"{ \"b\":1, \"a\" : [true] } " } = some b!"{\"b\":1,\"a\":[true]}" ∧
    convertBody exE exObjSt { text := b!"{\"b\":1,\"a\":2,\"b\":3,\"c\":4}" } = some b!"{\"b\":1,\"a\":2}" ∧
    convertBody exE exObjSt { text := b!"{\"\":1,\"a\":2}" } = some b!"{}" := by decide +kernel

end Verif.Preview
