import Verif.Props.Formats
import Verif.Props.Stats
import Verif.Props.Validate
import Verif.Props.Preview
/-
C78: what is computed from a body does not depend on the format it is stored in.
-/
set_option autoImplicit false
namespace Verif.Formats
open Verif.Streams Verif.Doc

/-- a loop whose function looks only at values ends alike, and in the same state, with two readers that give the same values and the same end -/
theorem each_congr {σ ρ τ : Type} {rd : Reader σ} {rd' : Reader ρ} (fn : Callback τ) (hfn : ∀ i e e' t, e.value = e'.value → fn i e t = fn i e' t)
    {s s' : σ} {r r' : ρ} {es es' : List Entry} {x : RErr} (h1 : Drains rd s es x s') (h2 : Drains rd' r es' x r')
    (hv : es.map (·.value) = es'.map (·.value)) (n i : Nat) (t : τ) :
    (eachEntry rd fn n i s t).map (fun p => (p.1, p.2.2)) = (eachEntry rd' fn n i r t).map (fun p => (p.1, p.2.2)) := by
  obtain ⟨m, y1, f1⟩ := h1
  obtain ⟨m', y2, f2⟩ := h2
  induction n generalizing s r es es' i t with
  | zero => rfl
  | succ n ih =>
    cases y1 with
    | nil =>
      cases es' with
      | cons => simp at hv
      | nil =>
        cases y2
        simp only [eachEntry, f1, f2, Option.map_some]
    | cons g1 y1 =>
      cases es' with
      | nil => simp at hv
      | cons e' es' =>
        simp only [List.map_cons, List.cons.injEq] at hv
        cases y2 with
        | cons g2 y2 =>
          simp only [eachEntry, g1, g2]
          rw [hfn _ _ _ _ hv.1]
          cases hf : fn i e' t with
          | mk o t1 =>
            cases o with
            | some a => simp
            | none => exact ih hv.2 (i + 1) t1 y1 y2

/-- The statistics of two bodies with the same values are the same, panics and errors included. -/
theorem C78_stats {σ ρ : Type} (L : Stats.Lib) {rd : Reader σ} {rd' : Reader ρ} {s s' : σ} {r r' : ρ} {es es' : List Entry} {x : RErr}
    (h1 : Drains rd s es x s') (h2 : Drains rd' r es' x r') (hv : es.map (·.value) = es'.map (·.value)) (n : Nat) :
    Stats.calculate L rd n s = Stats.calculate L rd' n r := by
  have h := each_congr (fun _ e (t : Option (Option Stats.Acc)) => (none, t.bind fun a => Stats.writeEntry L a e))
    (fun i e e' t he => by simp only [Stats.writeEntry, he]) h1 h2 hv n 0 (some none)
  unfold Stats.calculate
  revert h
  generalize eachEntry rd _ n 0 s _ = a
  generalize eachEntry rd' _ n 0 r _ = b
  intro h
  cases a with
  | none => cases b with
    | none => rfl
    | some b => simp at h
  | some a => cases b with
    | none => simp at h
    | some b =>
      simp only [Option.map_some, Option.some.injEq, Prod.mk.injEq] at h
      simp only [Option.map_some, h.1, h.2]

/-- The problems validation finds in two array bodies with the same values are the same, and so are its failures. -/
theorem C78_validation {κ ε σ ρ : Type} (F : FloatCodec) (L : Validate.Lib κ ε) (b : Nat) (schema : Option (List (Bytes × Val)))
    (ht : getTopLevelType schema ≠ some .object) {rd : Reader σ} {rd' : Reader ρ} {s s' : σ} {r r' : ρ} {es es' : List Entry} {x : RErr}
    (h1 : Drains rd s es x s') (h2 : Drains rd' r es' x r') (hv : es.map (·.value) = es'.map (·.value)) (n : Nat) :
    Validate.entryReader F L b schema rd n s = Validate.entryReader F L b schema rd' n r := by
  unfold Validate.entryReader
  cases L.compile schema with
  | none => rfl
  | some k =>
    simp only
    cases htl : getTopLevelType schema with
    | none => rfl
    | some tl =>
      have : tl = .array := by cases tl with | array => rfl | object => exact absurd htl ht
      subst this
      have h := each_congr (Validate.row F L k .array b)
        (fun i e e' t he => by
          unfold Validate.row
          have : ∀ w, Json.writeEntry F .array [] e w = Json.writeEntry F .array [] e' w := by
            intro w
            simp only [Json.writeEntry, Json.valBytes, he]
          simp only [this]) h1 h2 hv n 0 {}
      simp only
      revert h
      generalize eachEntry rd _ n 0 s _ = a
      generalize eachEntry rd' _ n 0 r _ = c
      intro h
      cases a with
      | none => cases c with
        | none => rfl
        | some c => simp at h
      | some a => cases c with
        | none => simp at h
        | some c =>
          simp only [Option.map_some, Option.some.injEq, Prod.mk.injEq] at h
          simp only [Option.map_some, h.1, h.2]

/-- Reading the whole of two array bodies with the same values gives the same. -/
theorem C78_read_all {σ ρ : Type} {rd : Reader σ} {rd' : Reader ρ} {s s' : σ} {r r' : ρ} {es es' : List Entry} {x : RErr}
    (h1 : Drains rd s es x s') (h2 : Drains rd' r es' x r') (hv : es.map (·.value) = es'.map (·.value)) (n : Nat) (hn : es.length < n) :
    (readAll rd .array n s).map (·.1) = (readAll rd' .array n r).map (·.1) := by
  have hl : es.length = es'.length := by simpa using congrArg List.length hv
  rw [C49_array rd s s' es x h1 n hn, C49_array rd' r r' es' x h2 n (by omega), hv, hl]
  rfl

theorem find_perm (es es' : List Entry) (hp : (es'.map fun e => (e.key, e.value)).Perm (es.map fun e => (e.key, e.value))) (hn : (es.map (·.key)).Nodup) (k : Bytes) :
    ((es'.filter fun e => e.key = k).getLast?).map (·.value) = ((es.filter fun e => e.key = k).getLast?).map (·.value) := by
  have h1 : ∀ l : List Entry, ((l.filter fun e => e.key = k).map fun e => (e.key, e.value)) = (l.map fun e => (e.key, e.value)).filter (fun p => p.1 = k) := by
    intro l; rw [List.filter_map]; rfl
  have h2 : ∀ l : List Entry, ((l.filter fun e => e.key = k).getLast?).map (·.value) = (((l.map fun e => (e.key, e.value)).filter (fun p => p.1 = k)).getLast?).map (·.2) := by
    intro l; rw [← h1, List.getLast?_map, Option.map_map]; rfl
  rw [h2, h2]
  have hp' := hp.filter (fun p => p.1 = k)
  have hlen : ((es.map fun e => (e.key, e.value)).filter (fun p => p.1 = k)).length ≤ 1 := by
    have : ∀ l : List (Bytes × Val), (l.map (·.1)).Nodup → (l.filter (fun p => p.1 = k)).length ≤ 1 := by
      intro l
      induction l with
      | nil => intro _; simp
      | cons p l ih =>
        intro h
        simp only [List.map_cons, List.nodup_cons] at h
        rw [List.filter_cons]
        split
        · rename_i hk
          simp only [decide_eq_true_eq] at hk
          have : l.filter (fun p => p.1 = k) = [] := by
            rw [List.filter_eq_nil_iff]
            intro q hq hqk
            simp only [decide_eq_true_eq] at hqk
            exact h.1 (List.mem_map.mpr ⟨q, hq, by rw [hqk, hk]⟩)
          rw [this]; simp
        · exact ih h.2
    exact this _ (by rw [List.map_map]; exact hn)
  have : ((es'.map fun e => (e.key, e.value)).filter (fun p => p.1 = k)) = ((es.map fun e => (e.key, e.value)).filter (fun p => p.1 = k)) := by
    revert hp' hlen
    generalize ((es'.map fun e => (e.key, e.value)).filter (fun p => p.1 = k)) = a
    generalize ((es.map fun e => (e.key, e.value)).filter (fun p => p.1 = k)) = b
    intro hp' hlen
    match b, hlen with
    | [], _ => exact List.perm_nil.mp hp'
    | [y], _ => exact List.perm_singleton.mp hp'
  rw [this]

/-- Reading the whole of two object bodies with the same members, in whatever order, gives the same. -/
theorem C78_read_all_object {σ ρ : Type} {rd : Reader σ} {rd' : Reader ρ} {s s' : σ} {r r' : ρ} {es es' : List Entry}
    (h1 : Drains rd s es .eof s') (h2 : Drains rd' r es' .eof r')
    (hp : (es'.map fun e => (e.key, e.value)).Perm (es.map fun e => (e.key, e.value))) (hn : (es.map (·.key)).Nodup) (n : Nat) (hl : es.length < n) :
    (readAll rd .object n s).map (·.1) = (readAll rd' .object n r).map (·.1) := by
  have hlen : es'.length = es.length := by simpa using hp.length_eq
  have a := C49_object rd s s' es .eof h1 n hl
  have b := C49_object rd' r r' es' .eof h2 n (by omega)
  rw [if_pos (by rfl)] at a b
  obtain ⟨m, e1, k1, g1⟩ := a
  obtain ⟨m', e2, k2, g2⟩ := b
  have : m = m' := map_ext k1 k2 fun k => by rw [g1, g2, find_perm es es' hp hn]
  rw [e1, e2, this]
  rfl

/-- two readers that give the same values and the same end, whatever their states are -/
def Alike {σ ρ : Type} (rd : Reader σ) (rd' : Reader ρ) (R : σ → ρ → Prop) : Prop :=
  ∀ s r, R s r → (∃ x s' r', rd s = (.fail x, s') ∧ rd' r = (.fail x, r')) ∨
    ∃ e e' s' r', rd s = (.entry e, s') ∧ rd' r = (.entry e', r') ∧ e.value = e'.value ∧ R s' r'

def AlikeAt {σ ρ : Type} (rd : Reader σ) (rd' : Reader ρ) (s : σ) (r : ρ) : Prop :=
  ∃ es es' x s' r', Drains rd s es x s' ∧ Drains rd' r es' x r' ∧ es.map (·.value) = es'.map (·.value)

theorem alike {σ ρ : Type} (rd : Reader σ) (rd' : Reader ρ) : Alike rd rd' (AlikeAt rd rd') := by
  rintro s r ⟨es, es', x, s', r', ⟨m, y1, f1⟩, ⟨m', y2, f2⟩, hv⟩
  cases y1 with
  | nil =>
    cases es' with
    | cons => simp at hv
    | nil => cases y2; exact .inl ⟨x, s', r', f1, f2⟩
  | cons g1 y1 =>
    cases es' with
    | nil => simp at hv
    | cons e' es' =>
      simp only [List.map_cons, List.cons.injEq] at hv
      cases y2 with
      | cons g2 y2 => exact .inr ⟨_, _, _, _, g1, g2, hv.1, _, _, _, _, _, ⟨_, y1, f1⟩, ⟨_, y2, f2⟩, hv.2⟩

theorem alike_skip {σ ρ : Type} {rd : Reader σ} {rd' : Reader ρ} {R : σ → ρ → Prop} (hR : Alike rd rd' R) (n : Nat) {s : σ} {r : ρ} (h : R s r) :
    (∃ x l s' r', skip rd n s = (some x, l, s') ∧ skip rd' n r = (some x, l, r')) ∨
    ∃ l s' r', skip rd n s = (none, l, s') ∧ skip rd' n r = (none, l, r') ∧ R s' r' := by
  induction n generalizing s r with
  | zero => exact .inr ⟨_, _, _, rfl, rfl, h⟩
  | succ n ih =>
    rcases hR s r h with ⟨x, s', r', h1, h2⟩ | ⟨e, e', s', r', h1, h2, _, h3⟩
    · exact .inl ⟨x, n + 1, s', r', by simp only [skip, h1], by simp only [skip, h2]⟩
    · simpa only [skip, h1, h2] using ih h3

theorem alike_paged {σ ρ : Type} {rd : Reader σ} {rd' : Reader ρ} {R : σ → ρ → Prop} (hR : Alike rd rd' R) :
    Alike (paged rd) (paged rd') (fun p q => p.offset = q.offset ∧ p.limit = q.limit ∧ R p.inner q.inner) := by
  rintro ⟨o, l, s⟩ ⟨o', l', r⟩ ⟨rfl, rfl, h⟩
  simp only at h
  unfold paged
  by_cases ho : 0 < o
  · simp only [ho, if_true]
    rcases alike_skip hR o.toNat h with ⟨x, k, s', r', h1, h2⟩ | ⟨k, s', r', h1, h2, h3⟩
    · simp only [h1, h2]; exact .inl ⟨x, _, _, rfl, rfl⟩
    · simp only [h1, h2]
      by_cases hl : l = 0
      · simp only [hl, if_true]; exact .inl ⟨_, _, _, rfl, rfl⟩
      · simp only [hl, if_false]
        rcases hR s' r' h3 with ⟨x, s'', r'', h1, h2⟩ | ⟨e, e', s'', r'', h1, h2, hv, h3⟩
        · simp only [h1, h2]; exact .inl ⟨_, _, _, rfl, rfl⟩
        · simp only [h1, h2]; exact .inr ⟨_, _, _, _, rfl, rfl, hv, rfl, rfl, h3⟩
  · simp only [ho, if_false]
    by_cases hl : l = 0
    · simp only [hl, if_true]; exact .inl ⟨_, _, _, rfl, rfl⟩
    · simp only [hl, if_false]
      rcases hR s r h with ⟨x, s'', r'', h1, h2⟩ | ⟨e, e', s'', r'', h1, h2, hv, h3⟩
      · simp only [h1, h2]; exact .inl ⟨_, _, _, rfl, rfl⟩
      · simp only [h1, h2]; exact .inr ⟨_, _, _, _, rfl, rfl, hv, rfl, rfl, h3⟩

theorem alike_copy {σ ρ τ : Type} {rd : Reader σ} {rd' : Reader ρ} {R : σ → ρ → Prop} (hR : Alike rd rd' R) (w : Writer τ)
    (hw : ∀ e e' t, e.value = e'.value → w e t = w e' t) (n : Nat) {s : σ} {r : ρ} (h : R s r) (t : τ) :
    (copy rd w n s t).map (fun p => (p.1, p.2.2)) = (copy rd' w n r t).map (fun p => (p.1, p.2.2)) := by
  induction n generalizing s r t with
  | zero => rfl
  | succ n ih =>
    rcases hR s r h with ⟨x, s', r', h1, h2⟩ | ⟨e, e', s', r', h1, h2, hv, h3⟩
    · cases x <;> simp [copy, h1, h2]
    · simp only [copy, h1, h2, hw e e' t hv]
      cases hq : w e' t with
      | mk o t' =>
        cases o with
        | some y => simp
        | none => exact ih h3 t'

theorem alike_convert {σ ρ τ : Type} {rd : Reader σ} {rd' : Reader ρ} {R : σ → ρ → Prop} (hR : Alike rd rd' R) (w : Writer τ)
    (hw : ∀ e e' t, e.value = e'.value → w e t = w e' t) (close : τ → Option Bytes) (limit offset : Int) (all : Bool) (n : Nat) {s : σ} {r : ρ}
    (h : R s r) (t : τ) : convert rd w close limit offset all n s t = convert rd' w close limit offset all n r t := by
  have aux : ∀ {α β : Type} {a : Option (CopyRes × α × τ)} {b : Option (CopyRes × β × τ)},
      a.map (fun p => (p.1, p.2.2)) = b.map (fun p => (p.1, p.2.2)) → (a.map fun r => close r.2.2) = b.map fun r => close r.2.2 := by
    intro α β a b hab
    cases a with
    | none => cases b with
      | none => rfl
      | some b => simp at hab
    | some a => cases b with
      | none => simp at hab
      | some b =>
        simp only [Option.map_some, Option.some.injEq, Prod.mk.injEq] at hab
        simp only [Option.map_some, hab.2]
  unfold convert
  split
  · exact aux (alike_copy hR w hw n h t)
  · exact aux (alike_copy (alike_paged hR) w hw n ⟨rfl, rfl, h⟩ t)

/-- Any window of two array bodies with the same values is the same JSON text. -/
theorem C78_window {σ ρ : Type} (F : FloatCodec) (indent : Bytes) {rd : Reader σ} {rd' : Reader ρ} {s s' : σ} {r r' : ρ} {es es' : List Entry} {x : RErr}
    (h1 : Drains rd s es x s') (h2 : Drains rd' r es' x r') (hv : es.map (·.value) = es'.map (·.value)) (limit offset : Int) (all : Bool) (n : Nat) :
    convert rd (jsonWriter F .array indent) (fun t => some (Json.close .array indent t)) limit offset all n s {} =
      convert rd' (jsonWriter F .array indent) (fun t => some (Json.close .array indent t)) limit offset all n r {} := by
  refine alike_convert (alike rd rd') _ ?_ _ _ _ _ _ ⟨es, es', x, s', r', h1, h2, hv⟩ _
  intro e e' t he
  simp only [jsonWriter, Json.writeEntry, Json.valBytes, he]

/-- So is the body in the preview of a dataset. -/
theorem C78_preview {σ : Type} (E E' : Preview.Env σ) (hF : E.F = E'.F) (st st' : Doc.Structure) (c c' : Preview.Content)
    (ht : getTopLevelType st.schema = some .array) (ht' : getTopLevelType st'.schema = some .array) {s s' r r' : σ} {es es' : List Entry} {x : RErr}
    (ho : E.openReader st c = some s) (ho' : E'.openReader st' c' = some r) (h1 : Drains (E.read st) s es x s') (h2 : Drains (E'.read st') r es' x r')
    (hv : es.map (·.value) = es'.map (·.value)) : Preview.convertBody E st c = Preview.convertBody E' st' c' := by
  unfold Preview.convertBody
  rw [ht, ht', ho, ho']
  simp only
  rw [hF, C78_window E'.F [] h1 h2 hv]

/-- Converting a body to another structure that describes an array changes neither its statistics, nor what validation says of it, nor
what is read from the whole of it, nor a window of it shown as JSON. -/
theorem C78_convert (E : Env) (hE : Lossless E) (hr : ∀ text, text.length ≤ (E.reads text).sum) (inp out : Structure) (file : Bytes)
    (limit offset : Int) (s s' : RState) (es : List Entry) (hin : newEntryReader E inp file = .ok s) (hd : Drains (reader E) s es .eof s')
    (hp : Packable out) (hf : Fits E out es) (ht : TopIs out b!"array") :
    ∃ n data r, convertFile E file inp out limit offset true n = some (.data data) ∧ newEntryReader E out data = .ok r ∧
      (∀ (L : Stats.Lib) (n : Nat), Stats.calculate L (reader E) n s = Stats.calculate L (reader E) n r) ∧
      (∀ {κ ε : Type} (F : FloatCodec) (L : Validate.Lib κ ε) (b n : Nat),
        Validate.entryReader F L b out.schema (reader E) n s = Validate.entryReader F L b out.schema (reader E) n r) ∧
      (∀ n, es.length < n → (readAll (reader E) .array n s).map (·.1) = (readAll (reader E) .array n r).map (·.1)) ∧
      (∀ (F : FloatCodec) (indent : Bytes) (limit offset : Int) (all : Bool) (n : Nat),
        convert (reader E) (jsonWriter F .array indent) (fun t => some (Json.close .array indent t)) limit offset all n s {} =
          convert (reader E) (jsonWriter F .array indent) (fun t => some (Json.close .array indent t)) limit offset all n r {}) := by
  obtain ⟨n, data, r, r', es', h1, h2, h3, h4⟩ := C69_convert E hE hr inp out file limit offset s s' es hin hd hp hf
  have hv := (h4.1 ht).symm
  refine ⟨n, data, r, h1, h2, fun L n => C78_stats L hd h3 hv n, fun F L b n => C78_validation F L b _ ?_ hd h3 hv n, fun n hn => C78_read_all hd h3 hv n hn,
    fun F ind l o a n => C78_window F ind hd h3 hv l o a n⟩
  rw [(getTop out .array).2 ht]
  decide

/-- The same for structures that describe an object, as far as reading the whole is concerned. -/
theorem C78_convert_object (E : Env) (hE : Lossless E) (hr : ∀ text, text.length ≤ (E.reads text).sum) (inp out : Structure) (file : Bytes)
    (limit offset : Int) (s s' : RState) (es : List Entry) (hin : newEntryReader E inp file = .ok s) (hd : Drains (reader E) s es .eof s')
    (hp : Packable out) (hf : Fits E out es) (ht : TopIs out b!"object") (hn : (es.map (·.key)).Nodup) :
    ∃ n data r, convertFile E file inp out limit offset true n = some (.data data) ∧ newEntryReader E out data = .ok r ∧
      ∀ n, es.length < n → (readAll (reader E) .object n s).map (·.1) = (readAll (reader E) .object n r).map (·.1) := by
  obtain ⟨n, data, r, r', es', h1, h2, h3, h4⟩ := C69_convert E hE hr inp out file limit offset s s' es hin hd hp hf
  exact ⟨n, data, r, h1, h2, fun n hl => C78_read_all_object hd h3 (h4.2 ht) hn n hl⟩

/-! ### Examples -/

def exLib : Stats.Lib := { bins := 5, estimate := fun l => l.length, top := fun _ => [] }

def exStats (st : Structure) (file : Bytes) : Option Stats.Res :=
  match newEntryReader exE st file with
  | .ok s => Stats.calculate exLib (reader exE) 9 s
  | _ => none

def exAll (st : Structure) (file : Bytes) : Option (Option Val) :=
  match newEntryReader exE st file with
  | .ok s => (readAll (reader exE) .object 9 s).map (·.1.toOption)
  | _ => none

/-- a packed JSON body and the CBOR body made from it have the same statistics, … -/
example : (exStats { format := b!"json", schema := typed b!"array", compression := b!"gz" } (31 :: b!"[[\"x\"],[null],[\"yy\"]]")).isSome ∧
    exStats { format := b!"json", schema := typed b!"array", compression := b!"gz" } (31 :: b!"[[\"x\"],[null],[\"yy\"]]") ≠ some .panic ∧
    exStats { format := b!"json", schema := typed b!"array", compression := b!"gz" } (31 :: b!"[[\"x\"],[null],[\"yy\"]]") =
    exStats { format := b!"cbor", schema := typed b!"array", compression := b!"zstd" } [40, 0x83, 0x81, 0x61, 120, 0x81, 0xf6, 0x81, 0x62, 121, 121] := by decide +kernel

/-- … one that was cut short does not -/
example : exStats { format := b!"json", schema := typed b!"array", compression := b!"gz" } (31 :: b!"[[\"x\"],[null],[\"yy\"]]") ≠
    exStats { format := b!"cbor", schema := typed b!"array", compression := b!"zstd" } [40, 0x82, 0x81, 0x61, 120, 0x81, 0xf6] := by decide +kernel

/-- members of objects come in another order from CBOR, which does not matter once they are read -/
example : exAll { format := b!"json", schema := typed b!"object" } b!"{\"b\":1,\"a\":2}" = some (some (.obj [(b!"a", .int 2), (b!"b", .int 1)])) ∧
    exAll { format := b!"cbor", schema := typed b!"object" } [0xa2, 0x61, 97, 2, 0x61, 98, 1] = some (some (.obj [(b!"a", .int 2), (b!"b", .int 1)])) := by decide +kernel

end Verif.Formats
