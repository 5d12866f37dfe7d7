import Verif.Model.DocText
import Verif.Lemmas.DocJsonRt
import Verif.Lemmas.JsonTreeParse
import Verif.Props.Ndjson
import Verif.Props.Vals
/- Reading back, field by field, what was written. -/
set_option autoImplicit false
namespace Verif.DocText
open Doc JsonStd
open JsonG (Tree)
open Ndjson (Kept KeptL KeptF kept_norm keptL_norm keptF_norm)
open Hash (present)

/-! ### members -/

theorem getAll_valid (F : FloatCodec) (m : List (Bytes × Val)) (h : ∀ x ∈ m, ValidUtf8 x.1) (n : Bytes) :
    getAll (treeOfF F m) n = (Doc.getAll m n).map (treeOf F) := by
  induction m with
  | nil => rfl
  | cons x m ih =>
    obtain ⟨k, v⟩ := x
    have ih := ih fun x hx => h x (by simp [hx])
    have hk : unquote (escBody 0 k) = k := by rw [unquote_esc, toValidUtf8_valid (h (k, v) (by simp))]
    unfold getAll Doc.getAll at ih ⊢
    simp only [treeOfF, List.filter_cons, hk]
    by_cases hf : foldName k = foldName n
    · simp [hf, ih]
    · simp [hf, ih]

theorem mem_present {fs : Fields} {x : Bytes × Val} : x ∈ present fs ↔ (x.1, some x.2) ∈ fs := by
  unfold present
  simp only [List.mem_filterMap, Option.map_eq_some_iff]
  constructor
  · rintro ⟨⟨k, o⟩, hm, v, hv, rfl⟩
    simp only at hv; subst hv; exact hm
  · intro h
    exact ⟨_, h, x.2, rfl, rfl⟩

theorem lookupF_cons (k : Bytes) (o : Option Val) (fs : Fields) (n : Bytes) :
    lookupF ((k, o) :: fs) n = if k = n then o else lookupF fs n := by
  unfold lookupF
  by_cases h : k = n <;> simp [h]

theorem lookupF_none {fs : Fields} {n : Bytes} (h : n ∉ fs.map (·.1)) : lookupF fs n = none := by
  induction fs with
  | nil => rfl
  | cons f fs ih =>
    obtain ⟨k, o⟩ := f
    simp only [List.map_cons, List.mem_cons, not_or] at h
    rw [lookupF_cons, if_neg (Ne.symm h.1), ih h.2]

theorem getAll_present (fs : Fields) (n : Bytes) (hnd : ((fs.map (·.1)).map foldName).Nodup) (hm : n ∈ fs.map (·.1)) :
    Doc.getAll (present fs) n = (lookupF fs n).toList := by
  have key : ∀ (fs : Fields), (∀ k ∈ fs.map (·.1), foldName k ≠ foldName n) → Doc.getAll (present fs) n = [] := by
    intro fs h
    apply getAll_none
    intro x hx
    exact h _ (List.mem_map_of_mem (mem_present.1 hx))
  induction fs with
  | nil => simp at hm
  | cons f fs ih =>
    obtain ⟨k, o⟩ := f
    rw [lookupF_cons]
    simp only [List.map_cons, List.nodup_cons] at hnd
    simp only [List.map_cons, List.mem_cons] at hm
    by_cases hk : k = n
    · subst hk
      have h0 := key fs fun j hj e => hnd.1 (e ▸ List.mem_map_of_mem hj)
      rw [if_pos rfl]
      cases o with
      | none => simpa [present] using h0
      | some v =>
        unfold Doc.getAll at h0 ⊢
        have : present ((k, some v) :: fs) = (k, v) :: present fs := by simp [present]
        rw [this]
        simp only [List.filter_cons, decide_true, if_true, List.map_cons, h0]
        rfl
    · have hm' : n ∈ fs.map (·.1) := hm.resolve_left (Ne.symm hk)
      rw [if_neg hk, ← ih hnd.2 hm']
      have hf : foldName k ≠ foldName n := fun e => hnd.1 (e ▸ List.mem_map_of_mem hm')
      cases o with
      | none => simp [present]
      | some v =>
        have : present ((k, some v) :: fs) = (k, v) :: present fs := by simp [present]
        rw [this]
        unfold Doc.getAll
        simp [hf]

/-- what a field becomes when it is written as `o` and read into `old` -/
def feed {α : Type} (F : FloatCodec) (f : Into α) (o : Option Val) (old : α) : D α :=
  match o with
  | none => .ok old
  | some v => f (treeOf F v) old

/-- field names that are text, differ after case folding, and `n` among them -/
def okNames (names : List Bytes) (n : Bytes) : Bool := okName names n && names.all fun k => k.all fun c => c.toNat < 0x80

theorem ascii_valid (s : Bytes) (h : s.all (fun c => c.toNat < 0x80) = true) : ValidUtf8 s := by
  have := validUtf8_ascii (l := s) (s := []) (by simpa using h) .nil
  simpa using this

theorem bind_pure' {α : Type} (x : D α) : (x >>= fun a => (pure a : D α)) = x := by cases x <;> rfl

theorem fld_toList {α : Type} (F : FloatCodec) (f : Into α) (m : List (Bytes × Tree)) (n : Bytes) (old : α) (o : Option Val)
    (h : getAll m n = o.toList.map (treeOf F)) : fld f m n old = feed F f o old := by
  unfold fld
  rw [h]
  cases o with
  | none => rfl
  | some v =>
    simp only [Option.toList, List.map_cons, List.map_nil, List.foldlM_cons, List.foldlM_nil, feed]
    exact bind_pure' _

theorem names_valid {fs : Fields} {names : List Bytes} (hn : fs.map (·.1) = names) {n : Bytes} (h : okNames names n = true) :
    ∀ f ∈ fs, ValidUtf8 f.1 := by
  simp only [okNames, Bool.and_eq_true, List.all_eq_true] at h
  intro f hf
  exact ascii_valid _ (List.all_eq_true.2 (h.2 _ (hn ▸ List.mem_map_of_mem hf)))

/-- a field of a struct that was written in the order of its fields -/
theorem fld_at {α : Type} (F : FloatCodec) (fs : Fields) (names : List Bytes) (hn : fs.map (·.1) = names) (f : Into α) (n : Bytes) (o : Option Val)
    (old : α) (h : okNames names n = true) (ho : lookupF fs n = o) : fld f (treeOfF F (present fs)) n old = feed F f o old := by
  apply fld_toList
  have hv := names_valid hn h
  simp only [okNames, okName, Bool.and_eq_true, decide_eq_true_eq, List.contains_iff_mem] at h
  rw [getAll_valid F _ (fun x hx => hv _ (mem_present.1 hx)), getAll_present fs n (by rw [hn]; exact h.1.1) (by rw [hn]; exact h.1.2), ho]

/-- a field written over other members of a map -/
theorem fld_put {α : Type} (F : FloatCodec) (m : List (Bytes × Val)) (hs : KeysSorted m) (hm : ∀ x ∈ m, ValidUtf8 x.1) (fs : Fields) (names : List Bytes)
    (hn : fs.map (·.1) = names) (f : Into α) (n : Bytes) (o : Option Val) (old : α) (h : okNames names n = true)
    (hne : ∀ x ∈ m, foldName x.1 ≠ foldName n) (ho : lookupF fs n = o) : fld f (treeOfF F (putFields m fs)) n old = feed F f o old := by
  apply fld_toList
  have hv := names_valid hn h
  simp only [okNames, Bool.and_eq_true] at h
  rw [getAll_valid F, getAll_put hs fs hne (by rw [hn]; exact h.1), ho]
  intro x hx
  rcases mem_putFields hx with hx | hx
  · obtain ⟨f, hf, e⟩ := List.mem_map.1 hx
    exact e ▸ hv f hf
  · exact hm x hx

/-- a name that matches no field is not there -/
theorem fld_absent {α : Type} (F : FloatCodec) (fs : Fields) (names : List Bytes) (hn : fs.map (·.1) = names) (f : Into α) (n : Bytes) (old : α)
    (hv : names.all (fun k => k.all fun c => c.toNat < 0x80) = true) (h : ∀ k ∈ names, foldName k ≠ foldName n) :
    fld f (treeOfF F (encFields fs)) n old = .ok old := by
  have : getAll (treeOfF F (encFields fs)) n = [] := by
    rw [getAll_valid F, getAll_enc_none fs (by rw [hn]; exact h)]
    · rfl
    · intro x hx
      rcases mem_putFields hx with hx | hx
      · exact ascii_valid _ (List.all_eq_true.1 hv _ (hn ▸ hx))
      · simp at hx
  unfold fld
  rw [this]
  rfl

/-! ### fields of each type -/

variable (F : FloatCodec)

theorem feed_str {s : Bytes} (h : ValidUtf8 s) (old : Bytes) : feed F intoStr (some (.str s)) old = .ok s := by
  simp [feed, treeOf, intoStr, unquote_esc, toValidUtf8_valid h]

theorem feed_omitStr {s : Bytes} (h : ValidUtf8 s) : feed F intoStr (omitStr s) [] = .ok s := by
  unfold omitStr
  split
  · rename_i e; subst e; rfl
  · exact feed_str F h []

theorem feed_none {α : Type} (f : Into α) (old : α) : feed F f none old = .ok old := rfl

theorem feed_omitInt {i : Int} (h : IsInt64 i) : feed F intoInt (omitInt i) 0 = .ok i := by
  unfold omitInt
  split
  · rename_i e; subst e; rfl
  · simp [feed, treeOf, intoInt, Vals.parseInteger_eq, atoi_fmtInt i h]

theorem feed_omitBool (b : Bool) : feed F intoBool (omitBool b) false = .ok b := by cases b <;> rfl

theorem intoAny_kept {v : Val} (h : Kept F v) (old : Val) : intoAny F (treeOf F v) old = .ok v := by
  simp [intoAny, plain_treeOf, (kept_norm F v h).1]

theorem feed_any {v : Val} (h : Kept F v) (old : Val) : feed F (intoAny F) (some v) old = .ok v := intoAny_kept F h old

theorem feed_omitVal {v : Val} (h : Kept F v) : feed F (intoAny F) (omitVal v) .null = .ok v := by
  unfold omitVal
  split
  · rename_i e; subst e; rfl
  · exact feed_any F h _

/-- a map of decoded values that text keeps -/
def MapKept (o : Option (List (Bytes × Val))) : Prop := KeysSorted (o.getD []) ∧ KeptF F (o.getD [])

theorem foldSet_sorted {α : Type} {m : List (Bytes × α)} (h : KeysSorted m) : m.foldl (fun a p => mapSet a p.1 p.2) [] = m :=
  Json.mapOf_sorted h

theorem feed_omitMap {o : Option (List (Bytes × Val))} (h : MapKept F o) : feed F (intoAnyMap F) (omitMap o) none = .ok (normMap o) := by
  cases o with
  | none => rfl
  | some m =>
    cases m with
    | nil => rfl
    | cons x m =>
      have h1 := (keptF_norm F _ h.2).1
      simp only [Option.getD_some] at h1
      simp only [feed, omitMap, treeOf, intoAnyMap, plainF_treeOf, h1, normMap, Option.getD_none]
      rw [foldSet_sorted (m := x :: m) h.1]

theorem intoPtr_ne {α : Type} (f : Into α) (zero : α) (old : Option α) (T : Tree) (h : T ≠ .null) :
    intoPtr f zero T old = (f T (old.getD zero)).map some := by
  cases T <;> first | exact absurd rfl h | rfl

theorem treeOf_null {v : Val} (h : v ≠ .null) : treeOf F v ≠ .null := by
  cases v <;> simp_all [treeOf]

theorem feed_ptr {α : Type} (f : Into α) (zero : α) (g : α → Val) (k : α → α) (o : Option α) (hn : ∀ x, g x ≠ .null)
    (h : ∀ x, o = some x → f (treeOf F (g x)) zero = .ok (k x)) : feed F (intoPtr f zero) (o.map g) none = .ok (o.map k) := by
  cases o with
  | none => rfl
  | some x =>
    simp only [Option.map_some, feed]
    rw [intoPtr_ne _ _ _ _ (treeOf_null F (hn x)), Option.getD_none, h x rfl]
    rfl

/-- an element of a slice of pointers -/
theorem ptr_elem {α : Type} (f : Into α) (zero : α) (g : α → Val) (o : Option α) (hn : ∀ x, g x ≠ .null)
    (h : ∀ x, o = some x → f (treeOf F (g x)) zero = .ok x) : intoPtr f zero (treeOf F (ptr g o)) none = .ok o := by
  cases o with
  | none => rfl
  | some x =>
    simp only [ptr]
    rw [intoPtr_ne _ _ _ _ (treeOf_null F (hn x)), Option.getD_none, h x rfl]
    rfl

theorem mapM_treeOfL {α β : Type} (f : Tree → D β) (g : α → Val) (n : α → β) : ∀ (l : List α), (∀ x ∈ l, f (treeOf F (g x)) = .ok (n x)) →
    (treeOfL F (l.map g)).mapM f = .ok (l.map n)
  | [], _ => rfl
  | x :: l, h => by
    rw [List.map_cons, treeOfL, List.mapM_cons, h x (by simp), mapM_treeOfL f g n l (fun y hy => h y (by simp [hy]))]
    rfl

theorem feed_putList {α : Type} (f : Tree → D α) (g : α → Val) (o : Option (List α)) (h : ∀ l, o = some l → ∀ x ∈ l, f (treeOf F (g x)) = .ok x) :
    feed F (intoList f) (putList g o) none = .ok o := by
  cases o with
  | none => rfl
  | some l =>
    have := mapM_treeOfL F f g id l (h l rfl)
    simp only [putList, Option.map_some, feed, treeOf, intoList, this]
    simp [Except.map]

theorem feed_omitList {α : Type} (f : Tree → D α) (g : α → Val) (o : Option (List α)) (h : ∀ l, o = some l → ∀ x ∈ l, f (treeOf F (g x)) = .ok x) :
    feed F (intoList f) (omitList g o) none = .ok (normList o) := by
  cases o with
  | none => rfl
  | some l =>
    cases l with
    | nil => rfl
    | cons x l =>
      have := mapM_treeOfL F f g id (x :: l) (h _ rfl)
      simp only [omitList, feed, treeOf, intoList, this, normList]
      simp [Except.map]

theorem strElem_str {s : Bytes} (h : ValidUtf8 s) : strElem (treeOf F (.str s)) = .ok s := feed_str F h []

theorem feed_putStrs (o : Option (List Bytes)) (h : ∀ s ∈ o.getD [], ValidUtf8 s) : feed F (intoList strElem) (putList .str o) none = .ok o := by
  apply feed_putList
  rintro l rfl x hx
  exact strElem_str F (h x hx)

theorem mapM_treeOfF {α : Type} (f : Tree → D α) (g : α → Val) : ∀ (l : List (Bytes × α)),
    (∀ x ∈ l, ValidUtf8 x.1 ∧ f (treeOf F (g x.2)) = .ok x.2) →
    (treeOfF F (l.map fun kv => (kv.1, g kv.2))).mapM (fun kv => (f kv.2).map fun a => (unquote kv.1, a)) = .ok l
  | [], _ => rfl
  | (k, v) :: l, h => by
    have h0 := h (k, v) (by simp)
    have hk : unquote (escBody 0 k) = k := by rw [unquote_esc, toValidUtf8_valid h0.1]
    rw [List.map_cons, treeOfF, List.mapM_cons, h0.2, mapM_treeOfF f g l (fun y hy => h y (by simp [hy])), hk]
    rfl

theorem feed_mapOf {α : Type} (f : Tree → D α) (g : α → Val) (o : Option (List (Bytes × α))) (hs : KeysSorted (o.getD []))
    (h : ∀ x ∈ o.getD [], ValidUtf8 x.1 ∧ f (treeOf F (g x.2)) = .ok x.2) : feed F (intoMapOf f) (encMapOf g o) none = .ok (normMap o) := by
  cases o with
  | none => rfl
  | some l =>
    cases l with
    | nil => rfl
    | cons x l =>
      have := mapM_treeOfF F f g (x :: l) h
      simp only [List.map_cons] at this
      simp only [encMapOf, Option.map_some, List.map_cons, omitMap, feed, treeOf, intoMapOf, this, normMap, Option.getD_none]
      simp only [Option.getD_some] at hs
      simp only [Except.map, foldSet_sorted hs]

theorem base64_unquote (b : Bytes) : unquote (escBody 0 (b64enc b)) = b64enc b := by
  rw [unquote_esc, toValidUtf8_valid]
  apply ascii_valid
  rw [List.all_eq_true]
  have hc : ∀ n < 64, (b64char n).toNat < 0x80 := by decide
  induction b using b64enc.induct with
  | case1 a b c t ih =>
    have ha := a.toNat_lt; have hb := b.toNat_lt; have hcc := c.toNat_lt
    intro x hx
    simp only [b64enc, List.mem_cons] at hx
    rcases hx with rfl | rfl | rfl | rfl | hx
    · exact decide_eq_true (hc _ (by omega))
    · exact decide_eq_true (hc _ (by omega))
    · exact decide_eq_true (hc _ (by omega))
    · exact decide_eq_true (hc _ (by omega))
    · exact ih x hx
  | case2 a b =>
    have ha := a.toNat_lt; have hb := b.toNat_lt
    intro x hx
    simp only [b64enc, List.mem_cons, List.not_mem_nil, or_false] at hx
    rcases hx with rfl | rfl | rfl | rfl
    · exact decide_eq_true (hc _ (by omega))
    · exact decide_eq_true (hc _ (by omega))
    · exact decide_eq_true (hc _ (by omega))
    · decide
  | case3 a =>
    have ha := a.toNat_lt
    intro x hx
    simp only [b64enc, List.mem_cons, List.not_mem_nil, or_false] at hx
    rcases hx with rfl | rfl | rfl | rfl
    · exact decide_eq_true (hc _ (by omega))
    · exact decide_eq_true (hc _ (by omega))
    · decide
    · decide
  | case4 => simp [b64enc]

theorem feed_bytes (o : Option Bytes) : feed F intoBytes (omitBytes o) none = .ok (normList o) := by
  cases o with
  | none => rfl
  | some b =>
    cases b with
    | nil => rfl
    | cons x b => simp [omitBytes, feed, treeOf, intoBytes, normList, base64_unquote, b64decNL_enc]

theorem escBody_safe (s : Bytes) (h : ∀ c ∈ s, htmlSafe c = true) : escBody 0 s = s := by
  induction s with
  | nil => rfl
  | cons c s ih =>
    have hc := h c (by simp)
    have h80 : c < 0x80 := by
      simp only [htmlSafe, Bool.and_eq_true, decide_eq_true_eq] at hc
      exact hc.1.1.1.1.1.2
    rw [escBody, if_pos h80, ih fun x hx => h x (by simp [hx]), escAscii, if_pos hc]
    rfl

theorem digit_safe (c : UInt8) (h : isDigit c = true) : htmlSafe c = true := by
  have key : ∀ n < 256, isDigit (UInt8.ofNat n) = true → htmlSafe (UInt8.ofNat n) = true := by decide +kernel
  have := key c.toNat c.toNat_lt
  rw [UInt8.ofNat_toNat] at this
  exact this h

theorem timeText_safe (t : Time) (h : 0 ≤ t.year) : ∀ c ∈ timeText t, htmlSafe c = true := by
  have hp : ∀ w n, ∀ c ∈ padNat w n, htmlSafe c = true := fun w n c hc => digit_safe c (padNat_digits w n c hc)
  have hf : ∀ c ∈ fracText t.nanos, htmlSafe c = true := by
    intro c hc
    unfold fracText at hc
    split at hc
    · cases hc
    · rcases List.mem_cons.1 hc with rfl | hc
      · decide
      · apply hp 9 t.nanos
        unfold stripZeros at hc
        have := List.mem_reverse.1 hc
        exact List.mem_reverse.1 ((List.dropWhile_sublist _).mem this)
  intro c hc
  unfold timeText fmtYear at hc
  rw [if_neg (by omega)] at hc
  simp only [List.append_assoc, List.cons_append, List.mem_append, List.mem_cons, List.not_mem_nil, or_false] at hc
  rcases hc with hc | rfl | hc | rfl | hc | rfl | hc | rfl | hc | rfl | hc | hc | rfl <;>
    first | exact hp _ _ c hc | exact hf c hc | decide

theorem feed_time (t : Time) (h : t.Real) (old : Time) : feed F intoTime (some (.str (timeText t))) old = .ok t := by
  simp only [feed, treeOf, intoTime, escBody_safe _ (timeText_safe t h.1), parseTime_text t h]

/-! ### values that can be written -/

/-- numbers are printed as numbers and none is infinite or NaN -/
def Fine (v : Val) : Prop := NumsOK F v ∧ jsonOK v = true

theorem numsOKF_iff (m : List (Bytes × Val)) : NumsOKF F m ↔ ∀ x ∈ m, NumsOK F x.2 := by
  induction m with
  | nil => simp [NumsOKF]
  | cons x m ih => obtain ⟨k, v⟩ := x; simp [NumsOKF, ih]
theorem jsonOKF_iff (m : List (Bytes × Val)) : jsonOKF m = true ↔ ∀ x ∈ m, jsonOK x.2 = true := by
  induction m with
  | nil => simp [jsonOKF]
  | cons x m ih => obtain ⟨k, v⟩ := x; simp [jsonOKF, ih]
theorem numsOKL_iff (m : List Val) : NumsOKL F m ↔ ∀ x ∈ m, NumsOK F x := by
  induction m with
  | nil => simp [NumsOKL]
  | cons x m ih => simp [NumsOKL, ih]
theorem jsonOKL_iff (m : List Val) : jsonOKL m = true ↔ ∀ x ∈ m, jsonOK x = true := by
  induction m with
  | nil => simp [jsonOKL]
  | cons x m ih => simp [jsonOKL, ih]

theorem fine_obj (m : List (Bytes × Val)) : Fine F (.obj m) ↔ ∀ x ∈ m, Fine F x.2 := by
  simp only [Fine, NumsOK, jsonOK, numsOKF_iff, jsonOKF_iff]
  exact ⟨fun h x hx => ⟨h.1 x hx, h.2 x hx⟩, fun h => ⟨fun x hx => (h x hx).1, fun x hx => (h x hx).2⟩⟩
theorem fine_arr (l : List Val) : Fine F (.arr l) ↔ ∀ x ∈ l, Fine F x := by
  simp only [Fine, NumsOK, jsonOK, numsOKL_iff, jsonOKL_iff]
  exact ⟨fun h x hx => ⟨h.1 x hx, h.2 x hx⟩, fun h => ⟨fun x hx => (h x hx).1, fun x hx => (h x hx).2⟩⟩
theorem fine_str (s : Bytes) : Fine F (.str s) := ⟨trivial, rfl⟩
theorem fine_int (i : Int) : Fine F (.int i) := ⟨trivial, rfl⟩
theorem fine_bool (b : Bool) : Fine F (.bool b) := ⟨trivial, rfl⟩
theorem fine_null : Fine F .null := ⟨trivial, rfl⟩
theorem fine_kept {v : Val} (h : Kept F v) : Fine F v := ⟨(kept_norm F v h).2.1, (kept_norm F v h).2.2⟩

/-- every field that is present -/
def AllF (P : Val → Prop) : Fields → Prop
  | [] => True
  | (_, none) :: fs => AllF P fs
  | (_, some v) :: fs => P v ∧ AllF P fs

/-- the field is absent or … -/
def FineO (P : Val → Prop) (o : Option Val) : Prop := ∀ v, o = some v → P v

theorem allF_cons (P : Val → Prop) (k : Bytes) (o : Option Val) (fs : Fields) : AllF P ((k, o) :: fs) ↔ FineO P o ∧ AllF P fs := by
  cases o <;> simp [AllF, FineO]

theorem allF_mem {P : Val → Prop} {fs : Fields} (h : AllF P fs) {k : Bytes} {v : Val} (hm : (k, some v) ∈ fs) : P v := by
  induction fs with
  | nil => cases hm
  | cons f fs ih =>
    obtain ⟨k', o⟩ := f
    rw [allF_cons] at h
    rcases List.mem_cons.1 hm with e | hm
    · cases e; exact h.1 v rfl
    · exact ih h.2 hm

theorem fine_present {fs : Fields} (h : AllF (Fine F) fs) : Fine F (.obj (present fs)) := by
  rw [fine_obj]
  intro x hx
  exact allF_mem h (mem_present.1 hx)

theorem mem_putFields_val {m : List (Bytes × Val)} {fs : Fields} {x : Bytes × Val} (h : x ∈ putFields m fs) : (x.1, some x.2) ∈ fs ∨ x ∈ m := by
  unfold putFields at h
  induction fs generalizing m with
  | nil => exact Or.inr h
  | cons f fs ih =>
    obtain ⟨n, o⟩ := f
    rw [List.foldl_cons] at h
    rcases ih h with h | h
    · exact Or.inl (by simp [h])
    · cases o with
      | none => exact Or.inr h
      | some v =>
        rcases mem_mapSet h with rfl | h
        · exact Or.inl (by simp)
        · exact Or.inr h

theorem fine_put {m : List (Bytes × Val)} {fs : Fields} (h : AllF (Fine F) fs) (hm : ∀ x ∈ m, Fine F x.2) : Fine F (.obj (putFields m fs)) := by
  rw [fine_obj]
  intro x hx
  rcases mem_putFields_val hx with hx | hx
  · exact allF_mem h hx
  · exact hm x hx

theorem fo_some {P : Val → Prop} {v : Val} (h : P v) : FineO P (some v) := by rintro _ ⟨⟩; exact h
theorem fo_none {P : Val → Prop} : FineO P none := by rintro _ ⟨⟩
theorem fo_omitStr {P : Val → Prop} {s : Bytes} (h : P (.str s)) : FineO P (omitStr s) := by
  unfold omitStr
  split
  · exact fo_none
  · exact fo_some h
theorem fo_omitInt {P : Val → Prop} {i : Int} (h : P (.int i)) : FineO P (omitInt i) := by
  unfold omitInt
  split
  · exact fo_none
  · exact fo_some h
theorem fo_omitBool {P : Val → Prop} {b : Bool} (h : P (.bool true)) : FineO P (omitBool b) := by
  unfold omitBool
  split
  · exact fo_some h
  · exact fo_none
theorem fo_omitVal {P : Val → Prop} {v : Val} (h : P v) : FineO P (omitVal v) := by
  unfold omitVal
  split
  · exact fo_none
  · exact fo_some h
theorem fo_omitBytes {P : Val → Prop} {b : Option Bytes} (h : ∀ s, P (.str s)) : FineO P (omitBytes b) := by
  rcases b with _ | _ | ⟨x, b⟩
  · exact fo_none
  · exact fo_none
  · exact fo_some (h _)
theorem fo_map {P : Val → Prop} {α : Type} {f : α → Val} {o : Option α} (h : ∀ x, o = some x → P (f x)) : FineO P (o.map f) := by
  cases o with
  | none => exact fo_none
  | some x => exact fo_some (h x rfl)

theorem keptF_mem {m : List (Bytes × Val)} (h : KeptF F m) : ∀ x ∈ m, ValidUtf8 x.1 ∧ Kept F x.2 := by
  induction m with
  | nil => simp
  | cons y m ih =>
    obtain ⟨k, v⟩ := y
    simp only [KeptF] at h
    intro x hx
    rcases List.mem_cons.1 hx with rfl | hx
    · exact ⟨h.1, h.2.1⟩
    · exact ih h.2.2 x hx

theorem fo_omitMap {o : Option (List (Bytes × Val))} (h : MapKept F o) : FineO (Fine F) (omitMap o) := by
  rcases o with _ | _ | ⟨x, m⟩
  · exact fo_none
  · exact fo_none
  · apply fo_some
    rw [fine_obj]
    intro y hy
    exact fine_kept F (keptF_mem F h.2 y hy).2

theorem fo_putList {α : Type} {f : α → Val} {o : Option (List α)} (h : ∀ x ∈ o.getD [], Fine F (f x)) : FineO (Fine F) (putList f o) := by
  cases o with
  | none => exact fo_none
  | some l =>
    apply fo_some
    rw [fine_arr]
    intro x hx
    obtain ⟨y, hy, rfl⟩ := List.mem_map.1 hx
    exact h y hy

theorem fo_omitList {α : Type} {f : α → Val} {o : Option (List α)} (h : ∀ x ∈ o.getD [], Fine F (f x)) : FineO (Fine F) (omitList f o) := by
  rcases o with _ | _ | ⟨x, l⟩
  · exact fo_none
  · exact fo_none
  · exact fo_putList F (o := some (x :: l)) h

theorem fo_mapOf {α : Type} {f : α → Val} {o : Option (List (Bytes × α))} (h : ∀ x ∈ o.getD [], Fine F (f x.2)) : FineO (Fine F) (encMapOf f o) := by
  rcases o with _ | _ | ⟨x, l⟩
  · exact fo_none
  · exact fo_none
  · apply fo_some
    rw [fine_obj]
    intro y hy
    obtain ⟨z, hz, rfl⟩ := List.mem_map.1 hy
    exact h z hz

theorem fine_ptr {α : Type} {f : α → Val} {o : Option α} (h : ∀ x, o = some x → Fine F (f x)) : Fine F (ptr f o) := by
  cases o with
  | none => exact fine_null F
  | some x => exact h x rfl

/-- reading what was written -/
theorem read_write {α : Type} (f : Tree → D α) (v : Val) (h : Fine F v) (hd : depth v ≤ maxDepth) :
    write F v = some (enc F v) ∧ read f (enc F v) = f (treeOf F v) := by
  refine ⟨by rw [write, if_pos h.2], ?_⟩
  have := tree_enc F v [] [] h.1 hd ws_nil ws_nil
  rw [List.nil_append, List.append_nil] at this
  rw [read, this]

end Verif.DocText
