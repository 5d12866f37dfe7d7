import Verif.Model.Validate
import Verif.Lemmas.JsonParse
import Verif.Props.Streams
import Verif.Props.Ndjson
import Verif.Props.Csv
import Verif.Props.Names
/-
C38 (batched validation), C64 (row lengths of csv texts), C65 (checks of components).
-/
set_option autoImplicit false
namespace Verif.Validate
open Streams JsonStd

/-! ## Specification -/

/-- cutting a list into groups of `b`, the last one possibly shorter and never empty -/
inductive Batches {α : Type} (b : Nat) : List α → List (List α) → Prop
  | nil : Batches b [] []
  | last (g : List α) : g ≠ [] → g.length ≤ b → Batches b g [g]
  | cons (g es : List α) (gs : List (List α)) : g.length = b → es ≠ [] → Batches b es gs → Batches b (g ++ es) (g :: gs)

/-- the group as one document: an array of the values, or an object with the keys in order -/
def doc (tl : TopLevel) (g : List Entry) : Val :=
  match tl with
  | .array => .arr (g.map (·.value))
  | .object => .obj (g.map fun e => (e.key, e.value))

/-- the entries of a group can be written: every value has a JSON form, keys of objects are distinct and not empty -/
def GroupOK (tl : TopLevel) (g : List Entry) : Prop :=
  (∀ e ∈ g, jsonOK e.value = true) ∧ (tl = .object → (∀ e ∈ g, e.key ≠ []) ∧ (g.map (·.key)).Nodup)

/-- every group is marshalled, parsed and checked on its own; the errors are collected in order -/
def Reports {κ ε : Type} (F : FloatCodec) (L : Lib κ ε) (k : κ) (tl : TopLevel) (gs : List (List Entry)) (errs : List ε) : Prop :=
  ∃ docs : List Val, List.Forall₂ (fun g d => GroupOK tl g ∧ unmarshal F (enc F (doc tl g)) = some d) gs docs ∧ errs = docs.flatMap (L.check k)

theorem batches_flatten {α : Type} {b : Nat} {es : List α} {gs : List (List α)} (h : Batches b es gs) : gs.flatten = es := by
  induction h with
  | nil => rfl
  | last g _ _ => simp
  | cons g es gs _ _ _ ih => simp [ih]

theorem batches_exists {α : Type} {b : Nat} (hb : 0 < b) (es : List α) : ∃ gs, Batches b es gs := by
  suffices ∀ n, ∀ es : List α, es.length ≤ n → ∃ gs, Batches b es gs from this _ es (Nat.le_refl _)
  intro n
  induction n with
  | zero =>
    intro es h
    have : es = [] := List.eq_nil_of_length_eq_zero (by omega)
    exact ⟨[], this ▸ .nil⟩
  | succ n ih =>
    intro es h
    by_cases h0 : es = []
    · exact ⟨[], h0 ▸ .nil⟩
    · by_cases hl : es.length ≤ b
      · exact ⟨[es], .last es h0 hl⟩
      · obtain ⟨gs, hg⟩ := ih (es.drop b) (by simp; omega)
        refine ⟨es.take b :: gs, ?_⟩
        have := Batches.cons (b := b) (es.take b) (es.drop b) gs (by simp; omega) (by intro h; simp at h; omega) hg
        rwa [List.take_append_drop] at this

theorem batches_unique {α : Type} {b : Nat} {es : List α} {gs gs' : List (List α)} (h : Batches b es gs) (h' : Batches b es gs') : gs = gs' := by
  induction h generalizing gs' with
  | nil =>
    generalize hx : ([] : List α) = x at h'
    cases h' with
    | nil => rfl
    | last _ h => exact absurd hx.symm h
    | cons g es gs _ h => simp at hx; exact absurd hx.2 h
  | last g h1 h2 =>
    generalize hx : g = x at h'
    cases h' with
    | nil => exact absurd hx h1
    | last _ _ => rfl
    | cons g' es gs h3 h4 _ =>
      subst hx
      have : es.length = 0 := by simp at h2; omega
      exact absurd (List.eq_nil_of_length_eq_zero this) h4
  | cons g es gs h1 h2 h3 ih =>
    generalize hx : g ++ es = x at h'
    cases h' with
    | nil => simp at hx; exact absurd hx.2 h2
    | last _ _ h4 =>
      subst hx
      have : es.length = 0 := by simp at h4; omega
      exact absurd (List.eq_nil_of_length_eq_zero this) h2
    | cons g' es' gs' h4 h5 h6 =>
      obtain ⟨rfl, rfl⟩ := List.append_inj hx (by omega)
      rw [ih h6]

/-! ## Writing a group -/

/-- text of a group without the closing bracket -/
def groupText (F : FloatCodec) (tl : TopLevel) (g : List Entry) : Bytes :=
  match tl with
  | .array => encL F (g.map (·.value))
  | .object => encF F (g.map fun e => (e.key, e.value))

theorem enc_doc (F : FloatCodec) (tl : TopLevel) (g : List Entry) :
    enc F (doc tl g) = Json.openCh tl :: (groupText F tl g ++ [Json.closeCh tl]) := by
  cases tl <;> rfl

/-- writer state after the rows `g`, all accepted -/
def wrote (F : FloatCodec) (tl : TopLevel) (g : List Entry) : Json.WState :=
  if g = [] then {} else
  { rowsWritten := g.length, keysWritten := (if tl = .object then (g.map (·.key)).reverse else []),
    out := Json.openCh tl :: groupText F tl g }

theorem encL_snoc (F : FloatCodec) (l : List Val) (v : Val) (h : l ≠ []) : encL F (l ++ [v]) = encL F l ++ 44 :: enc F v := by
  induction l with
  | nil => exact absurd rfl h
  | cons w l ih =>
    cases l with
    | nil => simp [encL]
    | cons x l => simp only [List.cons_append, encL] at ih ⊢; rw [ih (by simp)]; simp

theorem encF_snoc (F : FloatCodec) (l : List (Bytes × Val)) (p : Bytes × Val) (h : l ≠ []) :
    encF F (l ++ [p]) = encF F l ++ 44 :: (jsonStr p.1 ++ 58 :: enc F p.2) := by
  induction l with
  | nil => exact absurd rfl h
  | cons w l ih =>
    cases l with
    | nil => simp [encF]
    | cons x l => simp only [List.cons_append, encF] at ih ⊢; rw [ih (by simp)]; simp

theorem groupText_snoc (F : FloatCodec) (tl : TopLevel) (g : List Entry) (e : Entry) :
    groupText F tl (g ++ [e]) = groupText F tl g ++ Json.separator [] g.length ++ (match tl with
      | .array => enc F e.value
      | .object => jsonStr e.key ++ 58 :: enc F e.value) := by
  cases g with
  | nil => cases tl <;> simp [groupText, encL, encF, Json.separator]
  | cons x g =>
    cases tl
    · simp only [groupText, List.map_append, List.map_cons, List.map_nil]
      rw [encL_snoc _ _ _ (by simp)]; simp [Json.separator]
    · simp only [groupText, List.map_append, List.map_cons, List.map_nil]
      rw [encF_snoc _ _ _ (by simp)]; simp [Json.separator]

theorem wrote_rows (F : FloatCodec) (tl : TopLevel) (g : List Entry) : (wrote F tl g).rowsWritten = g.length := by
  unfold wrote; split
  · rename_i h; simp [h]
  · rfl

theorem wrote_keys (F : FloatCodec) (tl : TopLevel) (g : List Entry) :
    (wrote F tl g).keysWritten = if tl = .object then (g.map (·.key)).reverse else [] := by
  unfold wrote; split
  · rename_i h; simp [h]
  · rfl

theorem wrote_out (F : FloatCodec) (tl : TopLevel) (g : List Entry) :
    (wrote F tl g).out ++ Json.opening tl g.length = Json.openCh tl :: groupText F tl g := by
  unfold wrote; split
  · rename_i h; subst h; cases tl <;> simp [Json.opening, groupText, encL, encF]
  · rename_i h
    have : g.length ≠ 0 := by intro e; exact h (List.eq_nil_of_length_eq_zero e)
    simp [Json.opening, this]

theorem write_step (F : FloatCodec) (tl : TopLevel) (g : List Entry) (e : Entry) (h : GroupOK tl (g ++ [e])) :
    Json.writeEntry F tl [] e (wrote F tl g) = (.ok (), wrote F tl (g ++ [e])) := by
  have hj : jsonOK e.value = true := h.1 e (by simp)
  have hne : g ++ [e] ≠ [] := by simp
  cases tl with
  | array =>
    rw [Json.writeEntry, Json.valBytes, if_pos hj]
    simp only [wrote_rows, wrote_keys]
    rw [wrote_out]
    rw [wrote, if_neg hne, groupText_snoc]
    simp [Json.marshal]
  | object =>
    obtain ⟨hk, hn⟩ := h.2 rfl
    have hk0 : e.key ≠ [] := hk e (by simp)
    have hk1 : e.key ∉ (g.map (·.key)).reverse := by
      rw [List.mem_reverse]
      rw [List.map_append, List.nodup_append] at hn
      intro hm
      exact hn.2.2 _ hm _ (by simp) rfl
    rw [Json.writeEntry, Json.valBytes, wrote_keys, if_neg hk0, if_pos rfl, if_neg hk1, if_pos hj]
    simp only [wrote_rows]
    rw [wrote_out]
    rw [wrote, if_neg hne, groupText_snoc]
    simp [Json.marshal, enc]

theorem write_fails (F : FloatCodec) (tl : TopLevel) (g : List Entry) (e : Entry) (hg : GroupOK tl g) (h : ¬ GroupOK tl (g ++ [e])) :
    ∃ x w, Json.writeEntry F tl [] e (wrote F tl g) = (.error x, w) := by
  rcases Json.writeEntry_cases F tl [] e (wrote F tl g) with ⟨keys, hw, hj⟩ | ⟨x, keys, hw⟩
  · exfalso
    apply h
    refine ⟨fun e' he' => ?_, fun ho => ?_⟩
    · rcases List.mem_append.1 he' with h' | h'
      · exact hg.1 e' h'
      · rw [List.mem_singleton.1 h']; exact hj
    · subst ho
      obtain ⟨hk, hn⟩ := hg.2 rfl
      have hv : ∃ d, (Json.valBytes F .object [] (wrote F .object g).keysWritten e).1 = .ok d := by
        unfold Json.writeEntry at hw
        split at hw
        · rename_i d keys' hv; exact ⟨d, by rw [hv]⟩
        · simp at hw
      obtain ⟨d, hv⟩ := hv
      rw [wrote_keys, if_pos rfl, Json.valBytes] at hv
      split at hv
      · simp at hv
      · split at hv
        · simp at hv
        · rename_i h0 h1
          rw [List.mem_reverse] at h1
          refine ⟨fun e' he' => ?_, ?_⟩
          · rcases List.mem_append.1 he' with h' | h'
            · exact hk e' h'
            · rw [List.mem_singleton.1 h']; exact h0
          · rw [List.map_append, List.nodup_append]
            refine ⟨hn, by simp, ?_⟩
            intro a ha c hc hac
            simp at hc
            subst hc; subst hac
            exact h1 ha
  · exact ⟨x, _, hw⟩

theorem groupOK_prefix {tl : TopLevel} {g g' : List Entry} (h : GroupOK tl (g ++ g')) : GroupOK tl g := by
  refine ⟨fun e he => h.1 e (List.mem_append_left _ he), fun ho => ⟨fun e he => (h.2 ho).1 e (List.mem_append_left _ he), ?_⟩⟩
  have := (h.2 ho).2
  rw [List.map_append, List.nodup_append] at this
  exact this.1

/-- flushing a written group -/
theorem flush_wrote {κ ε : Type} (F : FloatCodec) (L : Lib κ ε) (k : κ) (tl : TopLevel) (g : List Entry) (hg : g ≠ []) (errs : List ε) :
    flush F L k tl { w := wrote F tl g, errs := errs } =
      (unmarshal F (enc F (doc tl g))).map fun d => { w := wrote F tl g, errs := errs ++ L.check k d } := by
  have h0 : (wrote F tl g).out ≠ [] := by unfold wrote; rw [if_neg hg]; simp
  have h1 : (wrote F tl g).rowsWritten ≠ 0 := by
    rw [wrote_rows]; intro h; exact hg (List.eq_nil_of_length_eq_zero h)
  have h2 : Json.close tl [] (wrote F tl g) = enc F (doc tl g) := by
    rw [Json.close, if_neg h1, enc_doc]
    unfold wrote; rw [if_neg hg]; simp
  unfold flush
  rw [if_neg h0, h2]

theorem flush_start {κ ε : Type} (F : FloatCodec) (L : Lib κ ε) (k : κ) (tl : TopLevel) (errs : List ε) :
    flush F L k tl { errs := errs } = some { errs := errs } := by simp [flush]

/-! ## The loop -/

section
variable {κ ε : Type} (F : FloatCodec) (L : Lib κ ε) (k : κ) (tl : TopLevel) (b : Nat)

/-- rows inside a batch: `g` is written already -/
theorem called_inside (g es : List Entry) (i : Nat) (errs : List ε) (st' : State ε) (hg : GroupOK tl g) (hi : i % b = g.length % b)
    (h0 : g ≠ []) (hl : g.length + es.length ≤ b) :
    Called (row F L k tl b) i { w := wrote F tl g, errs := errs } es st' ↔ GroupOK tl (g ++ es) ∧ st' = { w := wrote F tl (g ++ es), errs := errs } := by
  induction es generalizing g i with
  | nil =>
    rw [List.append_nil]
    constructor
    · intro h; cases h; exact ⟨hg, rfl⟩
    · rintro ⟨_, rfl⟩; exact .nil _ _
  | cons e es ih =>
    have hlen : g.length ≠ 0 := fun h => h0 (List.eq_nil_of_length_eq_zero h)
    have hib : i % b ≠ 0 := by
      rw [hi, Nat.mod_eq_of_lt (by simp at hl; omega)]; exact hlen
    have hbeg : begin F L k tl b i { w := wrote F tl g, errs := errs } = some { w := wrote F tl g, errs := errs } := by
      rw [begin, if_neg hib]
    have hassoc : g ++ e :: es = (g ++ [e]) ++ es := by simp
    by_cases hok : GroupOK tl (g ++ [e])
    · have hrow : row F L k tl b i e { w := wrote F tl g, errs := errs } = (none, { w := wrote F tl (g ++ [e]), errs := errs }) := by
        simp only [row, hbeg, write_step F tl g e hok]
      have := ih (g ++ [e]) (i + 1) hok (by rw [List.length_append, List.length_singleton, Nat.add_mod, hi, ← Nat.add_mod]) (by simp)
        (by simp at hl ⊢; omega)
      rw [hassoc, ← this]
      constructor
      · intro h; cases h with
        | cons a c => rw [hrow] at a; simp only [Prod.mk.injEq, true_and] at a; rw [a]; exact c
      · intro h; exact .cons hrow h
    · constructor
      · intro h
        exfalso
        cases h with
        | cons a c =>
          obtain ⟨x, w, hw⟩ := write_fails F tl g e hg hok
          simp [row, hbeg, hw] at a
      · rintro ⟨h, _⟩
        rw [hassoc] at h
        exact absurd (groupOK_prefix h) hok

/-- one whole batch, beginning with a flush -/
theorem called_batch (g : List Entry) (i : Nat) (st st' : State ε) (hi : i % b = 0) (h0 : g ≠ []) (hl : g.length ≤ b) :
    Called (row F L k tl b) i st g st' ↔ ∃ st₁, flush F L k tl st = some st₁ ∧ GroupOK tl g ∧ st' = { w := wrote F tl g, errs := st₁.errs } := by
  cases g with
  | nil => exact absurd rfl h0
  | cons e es =>
    have hstart : ({} : Json.WState) = wrote F tl [] := rfl
    have hnil : GroupOK tl [] := ⟨by simp, by simp⟩
    cases hf : flush F L k tl st with
    | none =>
      have hbeg : begin F L k tl b i st = none := by simp [begin, hi, hf]
      constructor
      · intro h; cases h with
        | cons a c => simp [row, hbeg] at a
      · rintro ⟨_, h, _⟩; cases h
    | some st₁ =>
      have hbeg : begin F L k tl b i st = some { w := wrote F tl [], errs := st₁.errs } := by simp [begin, hi, hf, wrote]
      by_cases hok : GroupOK tl [e]
      · have hrow : row F L k tl b i e st = (none, { w := wrote F tl [e], errs := st₁.errs }) := by
          simp only [row, hbeg]
          rw [write_step F tl [] e hok]; rfl
        have := called_inside F L k tl b [e] es (i + 1) st₁.errs st' hok (by rw [List.length_singleton, Nat.add_mod, hi]; simp) (by simp)
          (by simp at hl ⊢; omega)
        have e2 : (∃ s, some st₁ = some s ∧ GroupOK tl (e :: es) ∧ st' = { w := wrote F tl (e :: es), errs := s.errs }) ↔
            GroupOK tl ([e] ++ es) ∧ st' = { w := wrote F tl ([e] ++ es), errs := st₁.errs } := by
          constructor
          · rintro ⟨s, h, a, c⟩; cases h; exact ⟨a, c⟩
          · rintro ⟨a, c⟩; exact ⟨st₁, rfl, a, c⟩
        rw [e2, ← this]
        constructor
        · intro h; cases h with
          | cons a c => rw [hrow] at a; simp only [Prod.mk.injEq, true_and] at a; rw [a]; exact c
        · intro h; exact .cons hrow h
      · constructor
        · intro h; exfalso
          cases h with
          | cons a c =>
            obtain ⟨x, w, hw⟩ := write_fails F tl [] e hnil hok
            simp [row, hbeg, hw] at a
        · rintro ⟨_, _, h, _⟩
          exact absurd (groupOK_prefix (g := [e]) (g' := es) h) hok

theorem called_append {τ : Type} {fn : Callback τ} {i : Nat} {t t' : τ} {es fs : List Entry} :
    Called fn i t (es ++ fs) t' ↔ ∃ t₁, Called fn i t es t₁ ∧ Called fn (i + es.length) t₁ fs t' := by
  induction es generalizing i t with
  | nil =>
    simp only [List.nil_append, List.length_nil, Nat.add_zero]
    constructor
    · intro h; exact ⟨t, .nil _ _, h⟩
    · rintro ⟨t₁, h1, h2⟩; cases h1; exact h2
  | cons e es ih =>
    have hadd : i + (e :: es).length = i + 1 + es.length := by simp; omega
    rw [hadd]
    constructor
    · intro h; cases h with
      | cons a c =>
        obtain ⟨t₁, h1, h2⟩ := ih.1 c
        exact ⟨t₁, .cons a h1, h2⟩
    · rintro ⟨t₁, h1, h2⟩; cases h1 with
      | cons a c => exact .cons a (ih.2 ⟨t₁, c, h2⟩)

theorem reports_cons (g : List Entry) (gs : List (List Entry)) (errs : List ε) :
    Reports F L k tl (g :: gs) errs ↔ GroupOK tl g ∧ ∃ d rest, unmarshal F (enc F (doc tl g)) = some d ∧ Reports F L k tl gs rest ∧ errs = L.check k d ++ rest := by
  constructor
  · rintro ⟨docs, h, rfl⟩
    cases h with
    | cons a c => exact ⟨a.1, _, _, a.2, ⟨_, c, rfl⟩, by simp⟩
  · rintro ⟨hg, d, rest, hd, ⟨docs, h, rfl⟩, rfl⟩
    exact ⟨d :: docs, .cons ⟨hg, hd⟩ h, by simp⟩

theorem reports_nil (errs : List ε) : Reports F L k tl [] errs ↔ errs = [] := by
  constructor
  · rintro ⟨docs, h, rfl⟩; cases h; rfl
  · rintro rfl; exact ⟨[], .nil, rfl⟩

theorem loop_iff {es : List Entry} {gs : List (List Entry)} (h : Batches b es gs) (i : Nat) (hi : i % b = 0) (st : State ε) (errs : List ε) :
    (∃ st' st'', Called (row F L k tl b) i st es st' ∧ flush F L k tl st' = some st'' ∧ st''.errs = errs) ↔
      ∃ st₁ new, flush F L k tl st = some st₁ ∧ Reports F L k tl gs new ∧ errs = st₁.errs ++ new := by
  induction h generalizing i st with
  | nil =>
    constructor
    · rintro ⟨st', st'', a, c, rfl⟩; cases a
      exact ⟨st'', [], c, (reports_nil F L k tl []).2 rfl, by simp⟩
    · rintro ⟨st₁, new, a, c, rfl⟩
      rw [reports_nil] at c; subst c
      exact ⟨st, st₁, .nil _ _, a, by simp⟩
  | last g h1 h2 =>
    constructor
    · rintro ⟨st', st'', a, c, rfl⟩
      obtain ⟨st₁, d, e, rfl⟩ := (called_batch F L k tl b g i st st' hi h1 h2).1 a
      rw [flush_wrote F L k tl g h1] at c
      cases hu : unmarshal F (enc F (doc tl g)) with
      | none => rw [hu] at c; cases c
      | some v =>
        rw [hu] at c
        simp only [Option.map_some, Option.some.injEq] at c
        subst c
        exact ⟨st₁, L.check k v, d, (reports_cons F L k tl g [] _).2 ⟨e, v, [], hu, (reports_nil F L k tl []).2 rfl, by simp⟩, rfl⟩
    · rintro ⟨st₁, new, a, c, rfl⟩
      obtain ⟨hg, v, rest, hv, hr, rfl⟩ := (reports_cons F L k tl g [] _).1 c
      rw [reports_nil] at hr; subst hr
      refine ⟨_, { w := wrote F tl g, errs := st₁.errs ++ L.check k v }, (called_batch F L k tl b g i st _ hi h1 h2).2 ⟨st₁, a, hg, rfl⟩, ?_, ?_⟩
      · rw [flush_wrote F L k tl g h1, hv]; rfl
      · simp
  | cons g es gs h1 h2 h3 ih =>
    by_cases hb : b = 0
    · exfalso
      subst hb
      have : ∀ {es : List Entry} {gs : List (List Entry)}, Batches 0 es gs → es = [] := by
        intro es gs h
        induction h with
        | nil => rfl
        | last g _ h => exact List.eq_nil_of_length_eq_zero (by omega)
        | cons g es gs _ h _ ih => exact absurd ih h
      exact h2 (this h3)
    have hg0 : g ≠ [] := by intro h; subst h; simp at h1; omega
    have hi' : (i + g.length) % b = 0 := by rw [h1, Nat.add_mod_right]; exact hi
    constructor
    · rintro ⟨st', st'', a, c, rfl⟩
      obtain ⟨t₁, a1, a2⟩ := called_append.1 a
      obtain ⟨st₁, d, e, rfl⟩ := (called_batch F L k tl b g i st t₁ hi hg0 (by omega)).1 a1
      obtain ⟨st₂, new, hf, hr, he⟩ := (ih (i + g.length) hi' { w := wrote F tl g, errs := st₁.errs }).1 ⟨st', st'', a2, c, rfl⟩
      rw [flush_wrote F L k tl g hg0] at hf
      cases hu : unmarshal F (enc F (doc tl g)) with
      | none => rw [hu] at hf; cases hf
      | some v =>
        rw [hu] at hf
        simp only [Option.map_some, Option.some.injEq] at hf
        subst hf
        exact ⟨st₁, L.check k v ++ new, d, (reports_cons F L k tl g gs _).2 ⟨e, v, new, hu, hr, rfl⟩, by rw [he]; simp⟩
    · rintro ⟨st₁, new, a, c, rfl⟩
      obtain ⟨hg, v, rest, hv, hr, rfl⟩ := (reports_cons F L k tl g gs _).1 c
      obtain ⟨st', st'', c1, c2, c3⟩ := (ih (i + g.length) hi' { w := wrote F tl g, errs := st₁.errs }).2
        ⟨{ w := wrote F tl g, errs := st₁.errs ++ L.check k v }, rest, by rw [flush_wrote F L k tl g hg0, hv]; rfl, hr, by simp⟩
      refine ⟨st', st'', called_append.2 ⟨_, (called_batch F L k tl b g i st _ hi hg0 (by omega)).2 ⟨st₁, a, hg, rfl⟩, c1⟩, c2, c3⟩

theorem row_not_eof (i : Nat) (e : Entry) (st st' : State ε) : row F L k tl b i e st ≠ (some b!"EOF", st') := by
  intro h
  unfold row at h
  split at h
  · simp only [Prod.mk.injEq, Option.some.injEq] at h; exact absurd h.1 (by decide)
  · split at h
    · simp at h
    · simp only [Prod.mk.injEq, Option.some.injEq] at h
      have := congrArg List.head? h.1
      exact absurd this (by simp [List.append_assoc])

end

/-! ## C38 -/

/-- Validation of a body succeeds with a list of errors exactly when the schema compiles and has a top level type, the
reader delivers its entries up to an end of file, and every group of 5000 consecutive entries (the last one may be
shorter) can be written as one document; the errors are those of the groups' documents, each checked on its own, in order. -/
theorem C38_ok_iff {κ ε σ : Type} (F : FloatCodec) (L : Lib κ ε) (schema : Option (List (Bytes × Val))) (rd : Reader σ) (s : σ) (errs : List ε) :
    (∃ n, entryReader F L batchSize schema rd n s = some (.ok errs)) ↔
      ∃ k tl es x s' gs, L.compile schema = some k ∧ getTopLevelType schema = some tl ∧ Drains rd s es x s' ∧ x.text = b!"EOF" ∧
        Batches 5000 es gs ∧ Reports F L k tl gs errs := by
  constructor
  · rintro ⟨n, h⟩
    unfold entryReader at h
    cases hk : L.compile schema with
    | none => simp [hk] at h
    | some k =>
      cases ht : getTopLevelType schema with
      | none => simp [hk, ht] at h
      | some tl =>
        simp only [hk, ht, Option.map_eq_some_iff] at h
        obtain ⟨⟨r, s', st'⟩, he, h⟩ := h
        cases r with
        | readErr i t => simp at h
        | fnErr t => simp at h
        | ok =>
          simp only at h
          rcases (C13_each_ok_iff rd (row F L k tl batchSize) s s' {} st').1 ⟨n, he⟩ with ⟨x, es, hx, hd, hc⟩ | ⟨es, e, t₁, _, _, hc⟩
          · cases hf : flush F L k tl st' with
            | none => simp [hf] at h
            | some st'' =>
              simp only [hf, Except.ok.injEq] at h
              obtain ⟨gs, hg⟩ := batches_exists (b := batchSize) (by decide) es
              obtain ⟨st₁, new, h1, h2, h3⟩ := (loop_iff F L k tl batchSize hg 0 (by decide) {} errs).1 ⟨st', st'', hc, hf, h⟩
              rw [flush_start] at h1
              simp only [Option.some.injEq] at h1
              subst h1
              simp only [List.nil_append] at h3
              subst h3
              exact ⟨k, tl, es, x, s', gs, rfl, rfl, hd, hx, hg, h2⟩
          · exact absurd hc (row_not_eof F L k tl batchSize _ _ _ _)
  · rintro ⟨k, tl, es, x, s', gs, hk, ht, hd, hx, hg, hr⟩
    obtain ⟨st', st'', h1, h2, h3⟩ := (loop_iff F L k tl batchSize hg 0 (by decide) {} errs).2
      ⟨{}, errs, flush_start F L k tl [], hr, by simp⟩
    obtain ⟨n, hn⟩ := (C13_each_ok_iff rd (row F L k tl batchSize) s s' {} st').2 (.inl ⟨x, es, hx, hd, h1⟩)
    refine ⟨n, ?_⟩
    unfold entryReader
    simp [hk, ht, hn, h2, h3]

/-- the groups whose rows were all written, and whose documents parsed except possibly the last one's -/
def Started (F : FloatCodec) (tl : TopLevel) (gs : List (List Entry)) : Prop :=
  (∀ g ∈ gs, GroupOK tl g) ∧ ∀ g ∈ gs.dropLast, (unmarshal F (enc F (doc tl g))).isSome

theorem batches_ne {α : Type} {b : Nat} {es : List α} {gs : List (List α)} (h : Batches b es gs) (he : es ≠ []) : gs ≠ [] := by
  cases h <;> simp_all

theorem batches_zero {α : Type} {es : List α} {gs : List (List α)} (h : Batches 0 es gs) : es = [] := by
  generalize hb : 0 = b at h
  induction h with
  | nil => rfl
  | last g _ h => exact List.eq_nil_of_length_eq_zero (by omega)
  | cons g es gs _ h _ ih => exact absurd ih h

theorem called_iff {κ ε : Type} (F : FloatCodec) (L : Lib κ ε) (k : κ) (tl : TopLevel) {b : Nat} {es : List Entry} {gs : List (List Entry)}
    (h : Batches b es gs) (h0 : es ≠ []) (i : Nat) (hi : i % b = 0) (st : State ε) :
    (∃ st', Called (row F L k tl b) i st es st') ↔ (flush F L k tl st).isSome ∧ Started F tl gs := by
  induction h generalizing i st with
  | nil => exact absurd rfl h0
  | last g h1 h2 =>
    simp only [called_batch F L k tl b g i st _ hi h1 h2, Started, Option.isSome_iff_exists]
    constructor
    · rintro ⟨st', st₁, a, c, _⟩; exact ⟨⟨_, a⟩, by simpa using c, by simp⟩
    · rintro ⟨⟨st₁, a⟩, c, _⟩; exact ⟨_, st₁, a, c g (by simp), rfl⟩
  | cons g es gs h1 h2 h3 ih =>
    have hb : b ≠ 0 := fun hb => h2 (batches_zero (hb ▸ h3))
    have hg0 : g ≠ [] := by intro h; subst h; simp at h1; omega
    have hi' : (i + g.length) % b = 0 := by rw [h1, Nat.add_mod_right]; exact hi
    have hgs := batches_ne h3 h2
    have hdl : (g :: gs).dropLast = g :: gs.dropLast := by cases gs <;> simp_all
    constructor
    · rintro ⟨st', a⟩
      obtain ⟨t₁, a1, a2⟩ := called_append.1 a
      obtain ⟨st₁, d, e, rfl⟩ := (called_batch F L k tl b g i st t₁ hi hg0 (by omega)).1 a1
      obtain ⟨c1, c2, c3⟩ := (ih h2 (i + g.length) hi' _).1 ⟨st', a2⟩
      rw [flush_wrote F L k tl g hg0, Option.isSome_map] at c1
      refine ⟨by rw [d]; rfl, ?_, ?_⟩
      · intro g' hg'; rcases List.mem_cons.1 hg' with rfl | h
        · exact e
        · exact c2 g' h
      · rw [hdl]; intro g' hg'; rcases List.mem_cons.1 hg' with rfl | h
        · exact c1
        · exact c3 g' h
    · rintro ⟨a, c2, c3⟩
      obtain ⟨st₁, a⟩ := Option.isSome_iff_exists.1 a
      rw [hdl] at c3
      obtain ⟨st', d⟩ := (ih h2 (i + g.length) hi' { w := wrote F tl g, errs := st₁.errs }).2
        ⟨by rw [flush_wrote F L k tl g hg0, Option.isSome_map]; exact c3 g (by simp), fun g' h => c2 g' (by simp [h]), fun g' h => c3 g' (by simp [h])⟩
      exact ⟨st', called_append.2 ⟨_, (called_batch F L k tl b g i st _ hi hg0 (by omega)).2 ⟨st₁, a, c2 g (by simp), rfl⟩, d⟩⟩

theorem called_start {κ ε : Type} (F : FloatCodec) (L : Lib κ ε) (k : κ) (tl : TopLevel) {b : Nat} {es : List Entry} {gs : List (List Entry)}
    (h : Batches b es gs) : (∃ st', Called (row F L k tl b) 0 ({} : State ε) es st') ↔ Started F tl gs := by
  by_cases h0 : es = []
  · subst h0
    have : gs = [] := batches_unique h .nil
    subst this
    exact ⟨fun _ => ⟨by simp, by simp⟩, fun _ => ⟨_, .nil _ _⟩⟩
  · rw [called_iff F L k tl h h0 0 (Nat.zero_mod b) {}, flush_start]
    simp

/-- Without a schema that compiles nothing is read; nor without a top level type. -/
theorem C38_schema_first {κ ε σ : Type} (F : FloatCodec) (L : Lib κ ε) (b : Nat) (schema : Option (List (Bytes × Val))) (rd : Reader σ) (n : Nat) (s : σ) :
    (entryReader F L b schema rd n s = some (.error .schema) ↔ L.compile schema = none) ∧
    (entryReader F L b schema rd n s = some (.error .buffer) ↔ L.compile schema ≠ none ∧ getTopLevelType schema = none) := by
  unfold entryReader
  cases hk : L.compile schema with
  | none => simp
  | some k =>
    cases ht : getTopLevelType schema with
    | none => simp
    | some tl =>
      cases he : eachEntry rd (row F L k tl b) n 0 s {} with
      | none => simp [he]
      | some r =>
        obtain ⟨r, s', st⟩ := r
        cases r
        · cases hf : flush F L k tl st <;> simp [he, hf]
        · simp [he]
        · simp [he]

/-- A read error ends validation with that error and the number of its row, whatever was found before, once the rows
before it went well. -/
theorem C38_read_error_iff {κ ε σ : Type} (F : FloatCodec) (L : Lib κ ε) (schema : Option (List (Bytes × Val))) (rd : Reader σ) (s : σ) (i : Nat) (t : Bytes) :
    (∃ n, entryReader F L batchSize schema rd n s = some (.error (.reading (.readErr i t)))) ↔
      ∃ k tl es x s' gs, L.compile schema = some k ∧ getTopLevelType schema = some tl ∧ Drains rd s es x s' ∧ x.text = t ∧ t ≠ b!"EOF" ∧
        es.length = i ∧ Batches 5000 es gs ∧ Started F tl gs := by
  constructor
  · rintro ⟨n, h⟩
    unfold entryReader at h
    cases hk : L.compile schema with
    | none => simp [hk] at h
    | some k =>
      cases ht : getTopLevelType schema with
      | none => simp [hk, ht] at h
      | some tl =>
        simp only [hk, ht, Option.map_eq_some_iff] at h
        obtain ⟨⟨r, s', st'⟩, he, h⟩ := h
        cases r with
        | readErr i' t' =>
          simp only [Except.error.injEq, Fail.reading.injEq, EachRes.readErr.injEq] at h
          obtain ⟨rfl, rfl⟩ := h
          obtain ⟨es, y, h1, h2, h3, h4, h5⟩ := (C13_each_readErr_iff rd (row F L k tl batchSize) s s' {} st' _ _).1 ⟨n, he⟩
          obtain ⟨gs, hg⟩ := batches_exists (b := batchSize) (by decide) es
          exact ⟨k, tl, es, y, s', gs, rfl, rfl, h4, h2, h3, h1, hg, (called_start F L k tl hg).1 ⟨_, h5⟩⟩
        | fnErr t => simp at h
        | ok => simp only at h; cases hf : flush F L k tl st' <;> simp [hf] at h
  · rintro ⟨k, tl, es, x, s', gs, hk, ht, hd, rfl, hx, rfl, hg, hs⟩
    obtain ⟨st', hc⟩ := (called_start F L k tl (b := batchSize) hg).2 hs
    obtain ⟨n, hn⟩ := (C13_each_readErr_iff rd (row F L k tl batchSize) s s' {} st' _ _).2 ⟨es, x, rfl, rfl, hx, hd, hc⟩
    exact ⟨n, by simp [entryReader, hk, ht, hn]⟩

/-- Validation of a finite body always ends, and the answer does not depend on the bound of rounds. -/
theorem C38_terminates {κ ε σ : Type} (F : FloatCodec) (L : Lib κ ε) (b : Nat) (schema : Option (List (Bytes × Val))) (rd : Reader σ) (s s' : σ)
    (es : List Entry) (x : RErr) (h : Drains rd s es x s') : ∃ r, ∀ n, es.length < n → entryReader F L b schema rd n s = some r := by
  have key : ∀ {τ : Type} (fn : Callback τ) (i : Nat) (t : τ), ∃ r, ∀ n, es.length < n → eachEntry rd fn n i s t = some r := by
    intro τ fn i t
    obtain ⟨m, hy, hx⟩ := h
    induction hy generalizing i t with
    | nil s =>
      refine ⟨(if x.text = b!"EOF" then .ok else .readErr i x.text, s', t), fun n hn => ?_⟩
      obtain ⟨m, rfl⟩ : ∃ m, n = m + 1 := ⟨n - 1, by simp at hn; omega⟩
      rw [eachEntry, hx]
    | @cons s s₁ s₂ e es hr _ ih =>
      cases hf : fn i e t with
      | mk r t₁ =>
        cases r with
        | some y =>
          refine ⟨(if y = b!"EOF" then .ok else .fnErr y, s₁, t₁), fun n hn => ?_⟩
          obtain ⟨m, rfl⟩ : ∃ m, n = m + 1 := ⟨n - 1, by simp at hn; omega⟩
          rw [eachEntry, hr]; simp only [hf]
        | none =>
          obtain ⟨r, h⟩ := ih (i + 1) t₁ hx
          refine ⟨r, fun n hn => ?_⟩
          obtain ⟨m, rfl⟩ : ∃ m, n = m + 1 := ⟨n - 1, by simp at hn; omega⟩
          rw [eachEntry, hr]; simp only [hf]
          exact h m (by simp at hn; omega)
  unfold entryReader
  cases L.compile schema with
  | none => exact ⟨_, fun _ _ => rfl⟩
  | some k =>
    cases getTopLevelType schema with
    | none => exact ⟨_, fun _ _ => rfl⟩
    | some tl =>
      obtain ⟨r, hr⟩ := key (row F L k tl b) 0 {}
      exact ⟨_, fun n hn => by simp only; rw [hr n hn]; rfl⟩

theorem called_last {κ ε : Type} (F : FloatCodec) (L : Lib κ ε) (k : κ) (tl : TopLevel) {b : Nat} {es : List Entry} {gs : List (List Entry)}
    (h : Batches b es gs) (h0 : es ≠ []) (i : Nat) (hi : i % b = 0) (st st' : State ε) (hc : Called (row F L k tl b) i st es st') :
    ∃ g, gs.getLast? = some g ∧ st'.w = wrote F tl g ∧ GroupOK tl g ∧ g ≠ [] ∧ (i + es.length) % b = g.length % b ∧ g.length ≤ b := by
  induction h generalizing i st with
  | nil => exact absurd rfl h0
  | last g h1 h2 =>
    obtain ⟨st₁, _, a, rfl⟩ := (called_batch F L k tl b g i st st' hi h1 h2).1 hc
    exact ⟨g, by simp, rfl, a, h1, by rw [Nat.add_mod, hi]; simp, h2⟩
  | cons g es gs h1 h2 h3 ih =>
    have hi' : (i + g.length) % b = 0 := by rw [h1, Nat.add_mod_right]; exact hi
    obtain ⟨t₁, a1, a2⟩ := called_append.1 hc
    obtain ⟨g', c1, c2, c3, c4, c5, c6⟩ := ih h2 (i + g.length) hi' t₁ a2
    refine ⟨g', ?_, c2, c3, c4, ?_, c6⟩
    · have := batches_ne h3 h2
      rw [List.getLast?_cons, c1]; rfl
    · rw [List.length_append, ← Nat.add_assoc]; exact c5

theorem flush_some {κ ε : Type} (F : FloatCodec) (L : Lib κ ε) (k : κ) (tl : TopLevel) (st : State ε) (g : List Entry) (hg : g ≠ []) (hw : st.w = wrote F tl g) :
    (flush F L k tl st = none ↔ unmarshal F (enc F (doc tl g)) = none) := by
  obtain ⟨w, errs⟩ := st
  simp only at hw
  subst hw
  rw [flush_wrote F L k tl g hg]
  simp

/-- Validation ends with a parse error exactly when all rows were written, all groups but the last one parsed, and the
last one does not parse. -/
theorem C38_parse_error_iff {κ ε σ : Type} (F : FloatCodec) (L : Lib κ ε) (schema : Option (List (Bytes × Val))) (rd : Reader σ) (s : σ) :
    (∃ n, entryReader F L batchSize schema rd n s = some (.error .parsing)) ↔
      ∃ k tl es x s' gs g, L.compile schema = some k ∧ getTopLevelType schema = some tl ∧ Drains rd s es x s' ∧ x.text = b!"EOF" ∧
        Batches 5000 es gs ∧ Started F tl gs ∧ gs.getLast? = some g ∧ unmarshal F (enc F (doc tl g)) = none := by
  constructor
  · rintro ⟨n, h⟩
    unfold entryReader at h
    cases hk : L.compile schema with
    | none => simp [hk] at h
    | some k =>
      cases ht : getTopLevelType schema with
      | none => simp [hk, ht] at h
      | some tl =>
        simp only [hk, ht, Option.map_eq_some_iff] at h
        obtain ⟨⟨r, s', st'⟩, he, h⟩ := h
        cases r with
        | readErr i t => simp at h
        | fnErr t => simp at h
        | ok =>
          simp only at h
          rcases (C13_each_ok_iff rd (row F L k tl batchSize) s s' {} st').1 ⟨n, he⟩ with ⟨x, es, hx, hd, hc⟩ | ⟨es, e, t₁, _, _, hc⟩
          · cases hf : flush F L k tl st' with
            | some st'' => simp [hf] at h
            | none =>
              obtain ⟨gs, hg⟩ := batches_exists (b := batchSize) (by decide) es
              have hne : es ≠ [] := by
                rintro rfl; cases hc; rw [flush_start] at hf; cases hf
              obtain ⟨g, c1, c2, c3, c4, _⟩ := called_last F L k tl hg hne 0 (Nat.zero_mod _) {} st' hc
              exact ⟨k, tl, es, x, s', gs, g, rfl, rfl, hd, hx, hg, (called_start F L k tl hg).1 ⟨_, hc⟩, c1, (flush_some F L k tl st' g c4 c2).1 hf⟩
          · exact absurd hc (row_not_eof F L k tl batchSize _ _ _ _)
  · rintro ⟨k, tl, es, x, s', gs, g, hk, ht, hd, hx, hg, hs, hl, hu⟩
    obtain ⟨st', hc⟩ := (called_start F L k tl (b := batchSize) (ε := ε) hg).2 hs
    have hne : es ≠ [] := by
      rintro rfl; have : gs = [] := batches_unique hg .nil
      subst this; simp at hl
    obtain ⟨g', c1, c2, c3, c4, _⟩ := called_last F L k tl (b := batchSize) hg hne 0 (Nat.zero_mod _) {} st' hc
    rw [hl] at c1; cases c1
    obtain ⟨n, hn⟩ := (C13_each_ok_iff rd (row F L k tl batchSize) s s' {} st').2 (.inl ⟨x, es, hx, hd, hc⟩)
    exact ⟨n, by simp [entryReader, hk, ht, hn, (flush_some F L k tl st' g c4 c2).2 hu]⟩

theorem each_fnErr {σ τ : Type} {rd : Reader σ} {fn : Callback τ} {s s' : σ} {t t₁ t' : τ} {es : List Entry} {e : Entry} {x : Bytes}
    (h : Yields rd s (es ++ [e]) s') (hc : Called fn 0 t es t₁) (hf : fn es.length e t₁ = (some x, t')) (hx : x ≠ b!"EOF") :
    eachEntry rd fn (es.length + 1) 0 s t = some (.fnErr x, s', t') := by
  obtain ⟨s₁, h1, h2⟩ := h.split
  cases h2 with
  | cons h3 h4 =>
    cases h4
    rw [each_yields h1 hc, Nat.zero_add, eachEntry, h3]
    simp [hf, hx]

/-- the batch a next row belongs to: the last group while it is not full, else a new one -/
def current (b : Nat) (gs : List (List Entry)) : List Entry :=
  match gs.getLast? with
  | some g => if g.length = b then [] else g
  | none => []

/-- A row that cannot be written into its batch (no JSON form, empty key, key already in that batch) ends validation with
an error that names the row by its place in the whole body. -/
theorem C38_write_error {κ ε σ : Type} (F : FloatCodec) (L : Lib κ ε) (schema : Option (List (Bytes × Val))) (k : κ) (tl : TopLevel) (rd : Reader σ) (s s' : σ)
    (es : List Entry) (e : Entry) (gs : List (List Entry)) (hk : L.compile schema = some k) (ht : getTopLevelType schema = some tl)
    (hy : Yields rd s (es ++ [e]) s') (hg : Batches 5000 es gs) (hs : Started F tl gs)
    (hp : ∀ g, gs.getLast? = some g → (unmarshal F (enc F (doc tl g))).isSome) (he : ¬ GroupOK tl (current 5000 gs ++ [e])) :
    ∃ n x, entryReader F L batchSize schema rd n s = some (.error (.reading (.fnErr (b!"error writing row " ++ fmtNat es.length ++ b!": " ++ werrText x)))) := by
  obtain ⟨st', hc⟩ := (called_start F L k tl (b := batchSize) (ε := ε) hg).2 hs
  have hrow : ∃ x st'', row F L k tl batchSize es.length e st' = (some (b!"error writing row " ++ fmtNat es.length ++ b!": " ++ werrText x), st'') := by
    have fresh : GroupOK tl [] := ⟨by simp, by simp⟩
    by_cases hne : es = []
    · subst hne
      have : gs = [] := batches_unique hg .nil
      subst this
      cases hc
      obtain ⟨x, w, hw⟩ := write_fails F tl [] e fresh he
      refine ⟨x, { w := w }, ?_⟩
      have hw' : Json.writeEntry F tl [] e {} = (.error x, w) := hw
      simp [row, begin, flush, hw', -List.append_assoc]
    · obtain ⟨g, c1, c2, c3, c4, c5, c6⟩ := called_last F L k tl (b := batchSize) hg hne 0 (Nat.zero_mod _) {} st' hc
      rw [Nat.zero_add] at c5
      have hcur : current 5000 gs = if g.length = 5000 then [] else g := by simp [current, c1]
      rw [hcur] at he
      by_cases hfull : g.length = 5000
      · rw [if_pos hfull] at he
        have hm : es.length % batchSize = 0 := by rw [c5, hfull]; decide
        obtain ⟨st₁, hf⟩ := Option.ne_none_iff_exists'.1 (fun h => by
          have := (flush_some F L k tl st' g c4 c2).1 h
          have := hp g c1
          simp_all : flush F L k tl st' ≠ none)
        obtain ⟨x, w, hw⟩ := write_fails F tl [] e fresh he
        have hw' : Json.writeEntry F tl [] e {} = (.error x, w) := hw
        exact ⟨x, { w := w, errs := st₁.errs }, by simp [row, begin, hm, hf, hw', -List.append_assoc]⟩
      · rw [if_neg hfull] at he
        have hlt : g.length < batchSize := Nat.lt_of_le_of_ne c6 hfull
        have hpos : g.length ≠ 0 := fun h => c4 (List.eq_nil_of_length_eq_zero h)
        have hm : es.length % batchSize ≠ 0 := by rw [c5, Nat.mod_eq_of_lt hlt]; exact hpos
        obtain ⟨x, w, hw⟩ := write_fails F tl g e c3 he
        refine ⟨x, { w := w, errs := st'.errs }, ?_⟩
        simp [row, begin, hm, c2, hw, -List.append_assoc]
  obtain ⟨x, st'', hrow⟩ := hrow
  refine ⟨es.length + 1, x, ?_⟩
  have hx : b!"error writing row " ++ fmtNat es.length ++ b!": " ++ werrText x ≠ b!"EOF" := by
    intro h
    have := congrArg List.head? h
    simp [List.append_assoc] at this
  simp [entryReader, hk, ht, each_fnErr hy hc hrow hx, -List.append_assoc]

/-- When an earlier batch does not parse, the first row after it ends validation. -/
theorem C38_earlier_parse_error {κ ε σ : Type} (F : FloatCodec) (L : Lib κ ε) (schema : Option (List (Bytes × Val))) (k : κ) (tl : TopLevel) (rd : Reader σ) (s s' : σ)
    (es : List Entry) (e : Entry) (gs : List (List Entry)) (g : List Entry) (hk : L.compile schema = some k) (ht : getTopLevelType schema = some tl)
    (hy : Yields rd s (es ++ [e]) s') (hg : Batches 5000 es gs) (hs : Started F tl gs)
    (hl : gs.getLast? = some g) (hn : g.length = 5000) (hp : unmarshal F (enc F (doc tl g)) = none) :
    ∃ n, entryReader F L batchSize schema rd n s = some (.error (.reading (.fnErr b!"error parsing JSON bytes: json"))) := by
  obtain ⟨st', hc⟩ := (called_start F L k tl (b := batchSize) (ε := ε) hg).2 hs
  have hne : es ≠ [] := by
    rintro rfl; have : gs = [] := batches_unique hg .nil
    subst this; simp at hl
  obtain ⟨g', c1, c2, c3, c4, c5, c6⟩ := called_last F L k tl (b := batchSize) hg hne 0 (Nat.zero_mod _) {} st' hc
  rw [hl] at c1; cases c1
  rw [Nat.zero_add] at c5
  have hm : es.length % batchSize = 0 := by rw [c5, hn]; decide
  have hrow : row F L k tl batchSize es.length e st' = (some b!"error parsing JSON bytes: json", st') := by
    simp [row, begin, hm, (flush_some F L k tl st' g c4 c2).2 hp]
  exact ⟨es.length + 1, by simp [entryReader, hk, ht, each_fnErr hy hc hrow (by decide)]⟩

/-! ### What batching does to the result -/

/-- A body without entries is never checked: no schema finds fault with it. -/
theorem C38_empty_not_validated {κ ε σ : Type} (F : FloatCodec) (L : Lib κ ε) (schema : Option (List (Bytes × Val))) (k : κ) (tl : TopLevel) (rd : Reader σ)
    (s s' : σ) (x : RErr) (hk : L.compile schema = some k) (ht : getTopLevelType schema = some tl) (hd : rd s = (.fail x, s')) (hx : x.text = b!"EOF") (n : Nat) :
    entryReader F L batchSize schema rd (n + 1) s = some (.ok []) := by
  simp [entryReader, hk, ht, eachEntry, hd, hx, flush]

/-- a schema no array satisfies; the empty body passes -/
example : entryReader (ε := Bytes) Json.exF { compile := fun _ => some (), check := fun _ _ => [b!"no array is good enough"] } batchSize
    (some [(b!"type", .str b!"array")]) (listReader .eof) 1 [] = some (.ok []) := by decide +kernel
example : entryReader (ε := Bytes) Json.exF { compile := fun _ => some (), check := fun _ _ => [b!"no array is good enough"] } batchSize
    (some [(b!"type", .str b!"array")]) (listReader .eof) 2 [{ value := .null }] = some (.ok [b!"no array is good enough"]) := by decide +kernel

theorem jnormL_append (F : FloatCodec) (l l' : List Val) : jnormL F (l ++ l') = (jnormL F l).bind fun a => (jnormL F l').map fun c => a ++ c := by
  induction l with
  | nil => simp [jnormL]
  | cons v l ih =>
    rw [List.cons_append, jnormL, ih, jnormL]
    cases jnorm F v with
    | none => rfl
    | some x => cases jnormL F l with
      | none => rfl
      | some y => cases jnormL F l' <;> rfl

theorem numsOKL_iff (F : FloatCodec) (l : List Val) : NumsOKL F l ↔ ∀ v ∈ l, NumsOK F v := by
  induction l with
  | nil => simp [NumsOKL]
  | cons v l ih => simp [NumsOKL, ih]

theorem depthL_le (l : List Val) (n : Nat) : depthL l ≤ n ↔ ∀ v ∈ l, depth v ≤ n := by
  induction l with
  | nil => simp [depthL]
  | cons v l ih => rw [depthL, Nat.max_le, ih]; simp

theorem jnormL_length (F : FloatCodec) : ∀ (l vs : List Val), jnormL F l = some vs → vs.length = l.length
  | [], vs, h => by simp [jnormL] at h; simp [← h]
  | v :: l, vs, h => by
    rw [jnormL] at h
    cases hv : jnorm F v with
    | none => simp [hv] at h
    | some w =>
      simp only [hv, Option.bind_some, Option.map_eq_some_iff] at h
      obtain ⟨t, ht, rfl⟩ := h
      simp [jnormL_length F l t ht]

/-- an array of rows read back -/
theorem unmarshal_rows (F : FloatCodec) (g : List Entry) (h : ∀ e ∈ g, NumsOK F e.value ∧ depth e.value < maxDepth) :
    unmarshal F (enc F (doc .array g)) = (jnormL F (g.map (·.value))).map .arr := by
  have := unmarshal_enc F (doc .array g) [] (by
      simp only [doc, NumsOK, numsOKL_iff, List.mem_map]; rintro v ⟨e, he, rfl⟩; exact (h e he).1) (by
      simp only [doc, depth]
      have : depthL (g.map (·.value)) ≤ maxDepth - 1 := by
        rw [depthL_le]; intro v hv
        obtain ⟨e, he, rfl⟩ := List.mem_map.1 hv
        have := (h e he).2; omega
      have : 0 < maxDepth := by decide
      omega) (by simp [JsonG.WS])
  rw [List.append_nil] at this
  rw [this, doc, jnorm]

theorem flatMap_mod {α ε : Type} (r : Nat → α → List ε) (b : Nat) (g : List α) (i : Nat) (hi : i % b = 0) (j : Nat) (hl : j + g.length ≤ b) :
    (g.zipIdx (i + j)).flatMap (fun p => r (p.2 % b) p.1) = (g.zipIdx j).flatMap fun p => r p.2 p.1 := by
  induction g generalizing j with
  | nil => rfl
  | cons v g ih =>
    simp only [List.zipIdx_cons, List.flatMap_cons]
    rw [Nat.add_assoc, ih (j + 1) (by simp at hl; omega)]
    rw [Nat.add_mod, hi, Nat.zero_add, Nat.mod_mod, Nat.mod_eq_of_lt (by simp at hl; omega)]

/-- For rules that look at rows one by one: every row is checked exactly once, in order, but as if its number were its
place in its batch. -/
theorem C38_rowwise {κ ε : Type} (F : FloatCodec) (L : Lib κ ε) (k : κ) (r : Nat → Val → List ε)
    (hr : ∀ l, L.check k (.arr l) = l.zipIdx.flatMap fun p => r p.2 p.1) (es : List Entry) (vs : List Val)
    (hw : ∀ e ∈ es, jsonOK e.value = true ∧ NumsOK F e.value ∧ depth e.value < maxDepth) (hv : jnormL F (es.map (·.value)) = some vs)
    (gs : List (List Entry)) (hg : Batches 5000 es gs) (errs : List ε) :
    Reports F L k .array gs errs ↔ errs = vs.zipIdx.flatMap fun p => r (p.2 % 5000) p.1 := by
  suffices ∀ (b : Nat) (es : List Entry) (gs : List (List Entry)), Batches b es gs → ∀ (vs : List Val) (i : Nat), i % b = 0 →
      (∀ e ∈ es, jsonOK e.value = true ∧ NumsOK F e.value ∧ depth e.value < maxDepth) → jnormL F (es.map (·.value)) = some vs → ∀ errs,
      (Reports F L k .array gs errs ↔ errs = (vs.zipIdx i).flatMap fun p => r (p.2 % b) p.1) from this 5000 es gs hg vs 0 (by decide) hw hv errs
  intro b es gs h
  induction h with
  | nil =>
    intro vs i hi hw hv errs
    simp only [List.map_nil, jnormL, Option.some.injEq] at hv
    subst hv
    rw [reports_nil]; rfl
  | last g h1 h2 =>
    intro vs i hi hw hv errs
    have hlen := jnormL_length F _ _ hv
    rw [List.length_map] at hlen
    rw [reports_cons, unmarshal_rows F g (fun e he => (hw e he).2), hv]
    have hd := flatMap_mod r b vs i hi 0 (by omega)
    rw [Nat.add_zero] at hd
    rw [hd]
    constructor
    · rintro ⟨_, d, rest, hd, hr', rfl⟩
      rw [reports_nil] at hr'; subst hr'
      simp only [Option.map_some, Option.some.injEq] at hd
      subst hd
      rw [hr, List.append_nil]
    · rintro rfl
      exact ⟨⟨fun e he => (hw e he).1, by simp⟩, .arr vs, [], rfl, (reports_nil F L k .array []).2 rfl, by rw [hr, List.append_nil]⟩
  | cons g es gs h1 h2 h3 ih =>
    intro vs i hi hw hv errs
    rw [List.map_append, jnormL_append] at hv
    cases hv1 : jnormL F (g.map (·.value)) with
    | none => simp [hv1] at hv
    | some ws =>
      cases hv2 : jnormL F (es.map (·.value)) with
      | none => simp [hv1, hv2] at hv
      | some us =>
        simp only [hv1, hv2, Option.bind_some, Option.map_some, Option.some.injEq] at hv
        subst hv
        have hlen := jnormL_length F _ _ hv1
        rw [List.length_map] at hlen
        have hd := flatMap_mod r b ws i hi 0 (by omega)
        rw [Nat.add_zero] at hd
        rw [reports_cons, unmarshal_rows F g (fun e he => (hw e (by simp [he])).2), hv1, List.zipIdx_append, List.flatMap_append, hd]
        have ih' := ih us (i + ws.length) (by rw [hlen, h1, Nat.add_mod_right]; exact hi) (fun e he => hw e (by simp [he])) hv2
        constructor
        · rintro ⟨_, d, rest, hd, hr', rfl⟩
          simp only [Option.map_some, Option.some.injEq] at hd
          subst hd
          rw [hr, (ih' rest).1 hr']
        · rintro rfl
          refine ⟨⟨fun e he => (hw e (by simp [he])).1, by simp⟩, .arr ws, _, rfl, (ih' _).2 rfl, by rw [hr]⟩

/-- So rules that look at rows one by one and do not mention their number give the errors of validating the body at once. -/
theorem C38_rowwise_at_once {κ ε : Type} (F : FloatCodec) (L : Lib κ ε) (k : κ) (r : Val → List ε)
    (hr : ∀ l, L.check k (.arr l) = l.flatMap r) (es : List Entry) (vs : List Val)
    (hw : ∀ e ∈ es, jsonOK e.value = true ∧ NumsOK F e.value ∧ depth e.value < maxDepth) (hv : jnormL F (es.map (·.value)) = some vs)
    (gs : List (List Entry)) (hg : Batches 5000 es gs) (errs : List ε) :
    Reports F L k .array gs errs ↔ errs = L.check k (.arr vs) := by
  have hz : ∀ (f : Nat → Val → List ε) (l : List Val) (i : Nat), (∀ n v, f n v = r v) → (l.zipIdx i).flatMap (fun p => f p.2 p.1) = l.flatMap r := by
    intro f l
    induction l with
    | nil => intro i _; rfl
    | cons v l ih => intro i h; simp only [List.zipIdx_cons, List.flatMap_cons]; rw [ih _ h, h]
  rw [C38_rowwise F L k (fun _ v => r v) (fun l => by rw [hr]; exact (hz (fun _ v => r v) l 0 (fun _ _ => rfl)).symm) es vs hw hv gs hg, hr]
  rw [hz (fun n v => (fun _ v => r v) (n % 5000) v) vs 0 (fun _ _ => rfl)]

/-- a body of `n` nulls -/
def nulls (n : Nat) : List Entry := List.replicate n { value := .null }

theorem nulls_batches : Batches 5000 (nulls 5001) [nulls 5000, nulls 1] := by
  have : nulls 5001 = nulls 5000 ++ nulls 1 := by unfold nulls; rw [List.replicate_append_replicate]
  rw [this]
  exact .cons _ _ _ List.length_replicate (by simp [nulls]) (.last _ (by simp [nulls]) (by simp [nulls]))

theorem nulls_doc (F : FloatCodec) (n : Nat) : GroupOK .array (nulls n) ∧ unmarshal F (enc F (doc .array (nulls n))) = some (.arr (List.replicate n .null)) := by
  have hm : ∀ e ∈ nulls n, e.value = .null := by intro e he; rw [List.eq_of_mem_replicate he]
  refine ⟨⟨fun e he => by rw [hm e he]; rfl, by simp⟩, ?_⟩
  rw [unmarshal_rows F _ (fun e he => by rw [hm e he]; exact ⟨trivial, by decide⟩)]
  have : jnormL F ((nulls n).map (·.value)) = some (List.replicate n .null) := by
    clear hm
    unfold nulls
    rw [List.map_replicate]
    show jnormL F (List.replicate n .null) = _
    induction n with
    | zero => rfl
    | succ n ih => rw [List.replicate_succ, jnormL, ih]; rfl
  rw [this]; rfl

/-- Rules about the whole body are not those of the batches.  A body of 5001 rows that must have at least 5001 is
reported twice although it is valid; one that must have at most 5000 is not reported although it is not; and an error in
row 5000 is reported at row 0. -/
theorem C38_not_at_once {κ : Type} (F : FloatCodec) (L : Lib κ Nat) (schema : Option (List (Bytes × Val))) (k : κ) (hk : L.compile schema = some k)
    (ht : getTopLevelType schema = some .array) :
    ((∀ l, L.check k (.arr l) = if 5001 ≤ l.length then [] else [l.length]) →
      L.check k (.arr (List.replicate 5001 .null)) = [] ∧ ∃ n, entryReader F L batchSize schema (listReader .eof) n (nulls 5001) = some (.ok [5000, 1])) ∧
    ((∀ l, L.check k (.arr l) = if l.length ≤ 5000 then [] else [l.length]) →
      L.check k (.arr (List.replicate 5001 .null)) = [5001] ∧ ∃ n, entryReader F L batchSize schema (listReader .eof) n (nulls 5001) = some (.ok [])) ∧
    ((∀ l, L.check k (.arr l) = l.zipIdx.flatMap fun p => if p.2 = 5000 ∨ p.2 = 0 then [p.2] else []) →
      ∃ n, entryReader F L batchSize schema (listReader .eof) n (nulls 5001) = some (.ok [0, 0])) := by
  have key : ∀ errs, errs = L.check k (.arr (List.replicate 5000 .null)) ++ L.check k (.arr [.null]) →
      ∃ n, entryReader F L batchSize schema (listReader .eof) n (nulls 5001) = some (.ok errs) := by
    intro errs h
    refine (C38_ok_iff F L schema (listReader .eof) (nulls 5001) errs).2 ⟨k, .array, nulls 5001, .eof, [], _, hk, ht, listReader_drains _ _, rfl, nulls_batches, ?_⟩
    exact ⟨[.arr (List.replicate 5000 .null), .arr (List.replicate 1 .null)], .cons (nulls_doc F 5000) (.cons (nulls_doc F 1) .nil), by
      rw [h, List.flatMap_cons, List.flatMap_cons, List.flatMap_nil, List.append_nil]; rfl⟩
  refine ⟨fun h => ⟨by rw [h, List.length_replicate]; rfl, key _ ?_⟩, fun h => ⟨by rw [h, List.length_replicate]; rfl, key _ ?_⟩, fun h => key _ ?_⟩
  · rw [h, h, List.length_replicate]; rfl
  · rw [h, h, List.length_replicate]; rfl
  · have hz : ∀ (m i : Nat), i ≠ 0 → i + m ≤ 5000 →
        ((List.replicate m Val.null).zipIdx i).flatMap (fun p => if p.2 = 5000 ∨ p.2 = 0 then [p.2] else []) = [] := by
      intro m
      induction m with
      | zero => intros; rfl
      | succ m ih =>
        intro i h0 hl
        rw [List.replicate_succ, List.zipIdx_cons, List.flatMap_cons, ih (i + 1) (by omega) (by omega)]
        rw [if_neg (by simp; omega)]; rfl
    rw [h, h, List.replicate_succ, List.zipIdx_cons, List.flatMap_cons, hz 4999 (0 + 1) (by omega) (by omega)]
    rfl

/-- Keys of object bodies need to be distinct inside a batch only: a key that comes back in the next batch is not noticed,
though no writer would take the body as a whole. -/
theorem C38_repeated_key_unnoticed {κ ε σ : Type} (F : FloatCodec) (L : Lib κ ε) (schema : Option (List (Bytes × Val))) (k : κ) (rd : Reader σ) (s s' : σ)
    (g : List Entry) (e : Entry) (x : RErr) (d d' : Val) (hk : L.compile schema = some k) (ht : getTopLevelType schema = some .object)
    (hd : Drains rd s (g ++ [e]) x s') (hx : x.text = b!"EOF") (hn : g.length = 5000) (hg : GroupOK .object g) (he : e ∈ g)
    (h1 : unmarshal F (enc F (doc .object g)) = some d) (h2 : unmarshal F (enc F (doc .object [e])) = some d') :
    (∃ n, entryReader F L batchSize schema rd n s = some (.ok (L.check k d ++ L.check k d'))) ∧ ¬ GroupOK .object (g ++ [e]) := by
  have he' : GroupOK .object [e] := ⟨by simpa using hg.1 e he, fun _ => ⟨by simpa using (hg.2 rfl).1 e he, by simp⟩⟩
  refine ⟨(C38_ok_iff F L schema rd s _).2 ⟨k, .object, _, x, s', [g, [e]], hk, ht, hd, hx, .cons g [e] [[e]] hn (by simp) (.last _ (by simp) (by simp)), ?_⟩, ?_⟩
  · exact ⟨[d, d'], .cons ⟨hg, h1⟩ (.cons ⟨he', h2⟩ .nil), by simp⟩
  · intro h
    have := (h.2 rfl).2
    rw [List.map_append, List.nodup_append] at this
    exact this.2.2 e.key (List.mem_map_of_mem he) e.key (by simp) rfl

/-- with batches of two rows -/
def exLib : Lib Unit Nat := { compile := fun _ => some (), check := fun _ v => match v with
  | .arr l => [l.length] | .obj m => [100 + m.length] | _ => [] }
def exArr : Option (List (Bytes × Val)) := some [(b!"type", .str b!"array")]
def exObj : Option (List (Bytes × Val)) := some [(b!"type", .str b!"object")]

example : entryReader Json.exF exLib 2 exArr (listReader .eof) 9 (nulls 5) = some (.ok [2, 2, 1]) := by decide +kernel
example : entryReader Json.exF exLib 2 exArr (listReader .eof) 9 (nulls 4) = some (.ok [2, 2]) := by decide +kernel
example : entryReader Json.exF exLib 2 exArr (listReader (.other b!"broken")) 9 (nulls 3) = some (.error (.reading (.readErr 3 b!"broken"))) := by decide +kernel
example : entryReader Json.exF exLib 2 exObj (listReader .eof) 9 [{ key := b!"a", value := .null }, { key := b!"b", value := .null }, { key := b!"a", value := .null }]
    = some (.ok [102, 101]) := by decide +kernel
example : entryReader Json.exF exLib 2 exObj (listReader .eof) 9 [{ key := b!"a", value := .null }, { key := b!"a", value := .null }]
    = some (.error (.reading (.fnErr b!"error writing row 1: key already written"))) := by decide +kernel
example : entryReader Json.exF exLib 2 none (listReader .eof) 9 [] = some (.error .buffer) := by decide +kernel
example : Batches 2 [1, 2, 3] [[1, 2], [3]] := .cons [1, 2] [3] [[3]] rfl (by simp) (.last _ (by simp) (by decide))

/-! ## C64 – row lengths of csv texts -/

open Csv in
/-- records the csv reader delivers, and the error that ends them -/
inductive CsvReads (c : Csv.Cfg) : Csv.RState → List (List Bytes) → Csv.Err → Prop
  | stop {st st' : Csv.RState} {e : Csv.Err} : Csv.read c st = (.error e, st') → CsvReads c st [] e
  | next {st st' : Csv.RState} {r : List Bytes} {rs : List (List Bytes)} {e : Csv.Err} : Csv.read c st = (.ok r, st') → CsvReads c st' rs e → CsvReads c st (r :: rs) e

theorem csvReads_exists (n : Nat) : ∀ st : Csv.RState, st.rest.length < n → ∃ rs e, CsvReads lenCfg st rs e ∧ rs.length < n := by
  induction n with
  | zero => intro st h; omega
  | succ n ih =>
    intro st h
    cases hr : Csv.read lenCfg st with
    | mk a st' =>
      cases a with
      | error e => exact ⟨[], e, .stop hr, by simp⟩
      | ok r =>
        have hp := Csv.read_progress (c := lenCfg) (by decide) st
        rw [hr] at hp
        rcases hp with ⟨hp, _⟩ | hp
        · cases hp
        · obtain ⟨rs, e, h1, h2⟩ := ih st' (by simp only at hp; omega)
          exact ⟨r :: rs, e, .next hr h1, by simp; omega⟩

theorem csvReads_det {c : Csv.Cfg} {st : Csv.RState} {rs rs' : List (List Bytes)} {e e' : Csv.Err} (h : CsvReads c st rs e) (h' : CsvReads c st rs' e') : rs = rs' ∧ e = e' := by
  induction h generalizing rs' with
  | stop h =>
    cases h' with
    | stop h' => rw [h] at h'; simp at h'; exact ⟨rfl, h'.1⟩
    | next h' _ => rw [h] at h'; simp at h'
  | next h _ ih =>
    cases h' with
    | stop h' => rw [h] at h'; simp at h'
    | next h' h'' =>
      rw [h] at h'
      simp only [Prod.mk.injEq, Except.ok.injEq] at h'
      obtain ⟨rfl, rfl⟩ := h'
      obtain ⟨rfl, rfl⟩ := ih h''
      exact ⟨rfl, rfl⟩

theorem csvNorm_length (s : Bytes) : (Csv.norm s).length ≤ s.length := by
  induction s with
  | nil => simp [Csv.norm]
  | cons c s ih =>
    rw [Csv.norm]
    split
    · simp; omega
    · simp; omega

/-- the verdict on a list of records, as a function of the lengths alone -/
def verdict (n : Nat) : Nat → List Nat → Csv.Err → Option LenErr
  | _, [], .eof => none
  | _, [], e => some (.later e)
  | i, m :: ms, e => if m = n then verdict n (i + 1) ms e else some (.length i m n)

theorem lenLoop_reads {st : Csv.RState} {rs : List (List Bytes)} {e : Csv.Err} (h : CsvReads lenCfg st rs e) (n f i : Nat) (hf : rs.length < f) :
    lenLoop n f i st = verdict n i (rs.map List.length) e := by
  induction h generalizing f i with
  | stop h =>
    obtain ⟨f, rfl⟩ : ∃ g, f = g + 1 := ⟨f - 1, by simp at hf; omega⟩
    rw [lenLoop, h]
    rename_i e
    cases e <;> rfl
  | next h _ ih =>
    obtain ⟨f, rfl⟩ : ∃ g, f = g + 1 := ⟨f - 1, by simp at hf; omega⟩
    rw [lenLoop, h]
    simp only [List.map_cons, verdict]
    rw [← ih f (i + 1) (by simp at hf; omega)]
    simp only [ne_eq, ite_not]

theorem check_reads {text : Bytes} {rs : List (List Bytes)} {e : Csv.Err} (h : CsvReads lenCfg { rest := Csv.norm text, fpr := -1 } rs e) :
    checkRowLengths text = match rs with
      | [] => some (.first e)
      | r :: rs => verdict r.length 1 (rs.map List.length) e := by
  have hlen : rs.length < text.length + 1 := by
    obtain ⟨rs', e', h1, h2⟩ := csvReads_exists (text.length + 1) { rest := Csv.norm text, fpr := -1 } (by have := csvNorm_length text; simp only; omega)
    rw [(csvReads_det h h1).1]; exact h2
  cases h with
  | stop h => rw [checkRowLengths, h]
  | next h h' =>
    rw [checkRowLengths, h]
    exact lenLoop_reads h' _ _ _ (by simp at hlen; omega)

theorem verdict_none {n i : Nat} {ms : List Nat} {e : Csv.Err} : verdict n i ms e = none ↔ (∀ m ∈ ms, m = n) ∧ e = .eof := by
  induction ms generalizing i with
  | nil => cases e <;> simp [verdict]
  | cons m ms ih =>
    rw [verdict]
    split
    · rename_i h; rw [ih]; simp [h]
    · rename_i h; simp [h]

theorem verdict_later {n i : Nat} {ms : List Nat} {e x : Csv.Err} : verdict n i ms e = some (.later x) ↔ (∀ m ∈ ms, m = n) ∧ e = x ∧ x ≠ .eof := by
  induction ms generalizing i with
  | nil =>
    cases e <;> simp [verdict]
    all_goals (intro h; simp [← h])
  | cons m ms ih =>
    rw [verdict]
    split
    · rename_i h; rw [ih]; simp [h]
    · rename_i h; simp [h]

theorem verdict_length {n i : Nat} {ms : List Nat} {e : Csv.Err} {j a b : Nat} :
    verdict n i ms e = some (.length j a b) ↔ ∃ pre post, ms = pre ++ a :: post ∧ (∀ m ∈ pre, m = n) ∧ a ≠ n ∧ j = i + pre.length ∧ b = n := by
  induction ms generalizing i with
  | nil => cases e <;> simp [verdict]
  | cons m ms ih =>
    rw [verdict]
    split
    · rename_i h
      rw [ih]
      constructor
      · rintro ⟨pre, post, rfl, h1, h2, rfl, rfl⟩
        exact ⟨m :: pre, post, rfl, by simpa [h] using h1, h2, by simp; omega, rfl⟩
      · rintro ⟨pre, post, h0, h1, h2, rfl, rfl⟩
        cases pre with
        | nil => simp at h0; exact absurd (h0.1 ▸ h) h2
        | cons p pre =>
          simp at h0 h1
          exact ⟨pre, post, h0.2, h1.2, h2, by simp; omega, rfl⟩
    · rename_i h
      simp only [Option.some.injEq, LenErr.length.injEq]
      constructor
      · rintro ⟨rfl, rfl, rfl⟩; exact ⟨[], ms, rfl, by simp, h, by simp, rfl⟩
      · rintro ⟨pre, post, h0, h1, h2, rfl, rfl⟩
        cases pre with
        | nil => simp at h0; exact ⟨by simp, h0.1, rfl⟩
        | cons p pre => simp at h0 h1; exact absurd (h0.1 ▸ h1.1) h

/-- The check passes exactly the texts that read as records up to the end, at least one, all of the same length. -/
theorem C64_ok_iff (text : Bytes) :
    checkRowLengths text = none ↔
      ∃ r rs, CsvReads { trim := true } { rest := Csv.norm text, fpr := -1 } (r :: rs) .eof ∧ ∀ x ∈ rs, x.length = r.length := by
  obtain ⟨rs, e, h, _⟩ := csvReads_exists (text.length + 1) { rest := Csv.norm text, fpr := -1 } (by have := csvNorm_length text; simp only; omega)
  rw [check_reads h]
  cases rs with
  | nil =>
    simp only [reduceCtorEq, false_iff]
    rintro ⟨r, rs, h', _⟩
    have := (csvReads_det h h').1
    cases this
  | cons r rs =>
    simp only [verdict_none]
    constructor
    · rintro ⟨h1, rfl⟩; exact ⟨r, rs, h, fun x hx => h1 _ (List.mem_map_of_mem hx)⟩
    · rintro ⟨r', rs', h', h1⟩
      obtain ⟨h2, rfl⟩ := csvReads_det h h'
      cases h2
      refine ⟨fun m hm => ?_, rfl⟩
      obtain ⟨x, hx, rfl⟩ := List.mem_map.1 hm
      exact h1 x hx

/-- A length error names the first record of another length than the first one: by its number among the records, counted
from 0, not by its line. -/
theorem C64_length_iff (text : Bytes) (i len rowLen : Nat) :
    checkRowLengths text = some (.length i len rowLen) ↔
      ∃ r pre x post e, CsvReads { trim := true } { rest := Csv.norm text, fpr := -1 } (r :: (pre ++ x :: post)) e ∧
        (∀ y ∈ pre, y.length = r.length) ∧ x.length ≠ r.length ∧ i = (r :: pre).length ∧ len = x.length ∧ rowLen = r.length := by
  obtain ⟨rs, e, h, _⟩ := csvReads_exists (text.length + 1) { rest := Csv.norm text, fpr := -1 } (by have := csvNorm_length text; simp only; omega)
  rw [check_reads h]
  cases rs with
  | nil =>
    simp only [Option.some.injEq, reduceCtorEq, false_iff]
    rintro ⟨r, pre, x, post, e', h', _⟩
    have := (csvReads_det h h').1
    cases this
  | cons r rs =>
    simp only [verdict_length]
    constructor
    · rintro ⟨pre, post, h0, h1, h2, rfl, rfl⟩
      obtain ⟨pre', rest, rfl, h3, h4⟩ := List.map_eq_append_iff.1 h0
      obtain ⟨x, post', rfl, h5, h6⟩ := List.map_eq_cons_iff.1 h4
      subst h3; subst h5
      exact ⟨r, pre', x, post', e, h, fun y hy => h1 _ (List.mem_map_of_mem hy), h2, by simp; omega, rfl, rfl⟩
    · rintro ⟨r', pre, x, post, e', h', h1, h2, rfl, rfl, rfl⟩
      obtain ⟨h3, rfl⟩ := csvReads_det h h'
      cases h3
      refine ⟨pre.map List.length, post.map List.length, by simp, ?_, h2, by simp; omega, rfl⟩
      intro m hm
      obtain ⟨y, hy, rfl⟩ := List.mem_map.1 hm
      exact h1 y hy

/-- The other errors: the first record cannot be read (which includes there being none), or a later one cannot, all before
it being of one length. -/
theorem C64_unreadable_iff (text : Bytes) (e : Csv.Err) :
    (checkRowLengths text = some (.first e) ↔ CsvReads { trim := true } { rest := Csv.norm text, fpr := -1 } [] e) ∧
    (checkRowLengths text = some (.later e) ↔ e ≠ .eof ∧ ∃ r rs, CsvReads { trim := true } { rest := Csv.norm text, fpr := -1 } (r :: rs) e ∧ ∀ x ∈ rs, x.length = r.length) := by
  obtain ⟨rs, e', h, _⟩ := csvReads_exists (text.length + 1) { rest := Csv.norm text, fpr := -1 } (by have := csvNorm_length text; simp only; omega)
  rw [check_reads h]
  have hf : ∀ (n i : Nat) (ms : List Nat) (x : Csv.Err), verdict n i ms x ≠ some (.first e) := by
    intro n i ms x
    induction ms generalizing i with
    | nil => cases x <;> simp [verdict]
    | cons m ms ih => rw [verdict]; split
                      · exact ih _
                      · simp
  cases rs with
  | nil =>
    simp only [Option.some.injEq, LenErr.first.injEq, reduceCtorEq, false_iff]
    refine ⟨⟨fun h' => h' ▸ h, fun h' => (csvReads_det h h').2⟩, ?_⟩
    rintro ⟨_, r, rs, h', _⟩
    have := (csvReads_det h h').1
    cases this
  | cons r rs =>
    simp only [hf, false_iff, verdict_later]
    refine ⟨fun h' => ?_, ?_⟩
    · have := (csvReads_det h h').1
      cases this
    · constructor
      · rintro ⟨h1, rfl, h2⟩; exact ⟨h2, r, rs, h, fun x hx => h1 _ (List.mem_map_of_mem hx)⟩
      · rintro ⟨h0, r', rs', h', h1⟩
        obtain ⟨h2, rfl⟩ := csvReads_det h h'
        cases h2
        refine ⟨fun m hm => ?_, rfl, h0⟩
        obtain ⟨x, hx, rfl⟩ := List.mem_map.1 hm
        exact h1 x hx

/-- So a table written by the csv writer with commas passes exactly when its rows, those aside that are written as blank
lines, have one length and there is one. -/
theorem C64_written (rows : List (List Bytes)) (hcr : ∀ r ∈ rows, ∀ f ∈ r, (13 : UInt8) ∉ f) :
    checkRowLengths (rows.flatMap (Csv.recordText [44])) = none ↔
      ∃ r rs, rows.filter (fun fs => !Csv.blank fs) = r :: rs ∧ ∀ x ∈ rs, x.length = r.length := by
  have hsep : utf8Enc lenCfg.comma = [44] := by decide
  have hv : Csv.validDelim lenCfg.comma = true := by decide
  have hok : Csv.SepOK [44] := hsep ▸ Csv.sepOK_of_valid hv
  have hn : (13 : UInt8) ∉ rows.flatMap (Csv.recordText [44]) := by
    intro h
    obtain ⟨r, hr, h⟩ := List.mem_flatMap.1 h
    exact CsvIO.recordText_nocr hok (hcr r hr) h
  have key : ∀ rows : List (List Bytes), CsvReads lenCfg { rest := rows.flatMap (Csv.recordText [44]), fpr := -1 } (rows.filter (fun fs => !Csv.blank fs)) .eof := by
    intro rows
    induction rows with
    | nil => exact .stop (st' := { rest := [], fpr := -1 }) (by decide)
    | cons fs rows ih =>
      rw [List.flatMap_cons]
      cases hb : Csv.blank fs with
      | true =>
        rw [List.filter_cons_of_neg (by simp [hb])]
        have := CsvIO.read_blankText hv hb (rows.flatMap (Csv.recordText [44])) (-1)
        rw [hsep] at this
        generalize rows.filter (fun fs => !Csv.blank fs) = rs at ih
        cases ih with
        | stop h => rw [← this] at h; exact .stop h
        | next h h' => rw [← this] at h; exact .next h h'
      | false =>
        rw [List.filter_cons_of_pos (by simp [hb])]
        have := Csv.read_record (c := lenCfg) hv hb (rows.flatMap (Csv.recordText [44])) (-1) (.inl (by decide)) (fun _ => rfl)
        rw [hsep] at this
        exact .next this ih
  rw [C64_ok_iff, Csv.norm_nocr hn]
  constructor
  · rintro ⟨r, rs, h, h1⟩
    exact ⟨r, rs, (csvReads_det (key rows) h).1, h1⟩
  · rintro ⟨r, rs, h, h1⟩
    exact ⟨r, rs, h ▸ key rows, h1⟩

example : checkRowLengths b!"a,b\n\n 1, \"2\"\n" = none := by decide +kernel
example : checkRowLengths b!"a,b\n\n1,2\r\n3\n" = some (.length 2 1 2) := by decide +kernel
example : checkRowLengths b!"" = some (.first .eof) := by decide +kernel
example : checkRowLengths b!"a,b\n1,2\"\n" = some (.later .bareQuote) := by decide +kernel

/-! ## C65 – checks of components -/

/-- A dataset passes exactly when it is nil, or has a commit whose title is at most 100 bytes long, and its structure, if it
has one, names a known format and has a schema. -/
theorem C65_dataset_iff (ds : Option Doc.Dataset) :
    dataset ds = none ↔ ∀ d, ds = some d → (∃ c, d.commit = some c ∧ c.title.length ≤ 100) ∧
      ∀ s, d.structure_ = some s → (∃ f, f ≠ .unknown ∧ Names.parseDataFormat s.format = some f) ∧ s.schema ≠ none := by
  have hfmt : ∀ s : Doc.Structure, dataFormat s = .unknown ↔ ¬ ∃ f, f ≠ .unknown ∧ Names.parseDataFormat s.format = some f := by
    intro s
    unfold dataFormat
    cases Names.parseDataFormat s.format with
    | none => simp
    | some f => simp
  have hcommit : ∀ c : Doc.Commit, commit (some c) = none ↔ c.title.length ≤ 100 := by
    intro c
    unfold commit
    by_cases h0 : c.title = []
    · simp [h0]
    · simp only [h0, if_false]
      by_cases h : 100 < c.title.length
      · simp [h]
      · simp [h]; omega
  have hstr : ∀ s : Doc.Structure, structure_ (some s) = none ↔ (∃ f, f ≠ .unknown ∧ Names.parseDataFormat s.format = some f) ∧ s.schema ≠ none := by
    intro s
    rw [structure_]
    by_cases h : dataFormat s = .unknown
    · rw [if_pos h]
      have := (hfmt s).1 h
      simp [this]
    · rw [if_neg h]
      have := (not_congr (hfmt s)).1 h
      rw [Classical.not_not] at this
      cases hs : s.schema <;> simp [schema, this]
      split <;> simp
  cases ds with
  | none => simp [dataset]
  | some d =>
    cases hc : d.commit with
    | none => simp [dataset, hc]
    | some c =>
      simp only [dataset, hc]
      constructor
      · intro h d' hd'
        cases hd'
        split at h
        · cases h
        · rename_i h1
          refine ⟨⟨c, hc, (hcommit c).1 h1⟩, fun s hs => (hstr s).1 (hs ▸ h)⟩
      · intro h
        obtain ⟨⟨c', h1, h2⟩, h3⟩ := h d rfl
        rw [hc] at h1; cases h1
        rw [(hcommit c).2 h2]
        simp only
        cases hs : d.structure_ with
        | none => rfl
        | some s => exact (hstr s).2 (h3 s hs)

/-- Which problem is reported first: the commit before the structure, the format before the schema; and a missing schema is
reported differently for csv. -/
theorem C65_first_error (d : Doc.Dataset) :
    (d.commit = none → dataset (some d) = some .commitRequired) ∧
    (∀ c, d.commit = some c → 100 < c.title.length → dataset (some d) = some (.titleTooLong c.title.length)) ∧
    (∀ c s, d.commit = some c → c.title.length ≤ 100 → d.structure_ = some s →
      (∀ f, Names.parseDataFormat s.format = some f → f = .unknown) → dataset (some d) = some .formatRequired) ∧
    (∀ c s f, d.commit = some c → c.title.length ≤ 100 → d.structure_ = some s → Names.parseDataFormat s.format = some f → f ≠ .unknown →
      s.schema = none → dataset (some d) = some (if f = .csv then .csvSchema else .schemaRequired)) := by
  have hcommit : ∀ c : Doc.Commit, c.title.length ≤ 100 → commit (some c) = none := by
    intro c h
    rw [commit, if_neg (Nat.not_lt.2 h)]
    split <;> rfl
  refine ⟨fun h => by simp [dataset, h], fun c h hl => ?_, fun c s h hl hs hf => ?_, fun c s f h hl hs hf hu hn => ?_⟩
  · have h0 : c.title ≠ [] := by intro h; rw [h] at hl; simp at hl
    simp [dataset, h, commit, h0, hl]
  · have : dataFormat s = .unknown := by
      unfold dataFormat
      cases hp : Names.parseDataFormat s.format with
      | none => rfl
      | some f => exact hf f hp
    simp [dataset, h, hcommit c hl, hs, structure_, this]
  · have : dataFormat s = f := by simp [dataFormat, hf]
    simp only [dataset, h, hcommit c hl, hs, structure_, this, hu, if_false, hn, schema]
    by_cases hc : f = .csv <;> simp [hc]

example : dataset (some { commit := some { title := List.replicate 101 97 } }) = some (.titleTooLong 101) := by decide +kernel
example : dataset (some { commit := some {}, structure_ := some { format := b!"csv" } }) = some .csvSchema := by decide +kernel
example : dataset (some { commit := some {}, structure_ := some { format := b!"json", schema := some [] } }) = none := by decide +kernel

end Verif.Validate
