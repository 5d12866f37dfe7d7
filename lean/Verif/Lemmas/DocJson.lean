import Verif.Model.DocJson
import Verif.Lemmas.Map
/- Lemmas about encoded and decoded structs. -/
namespace Verif.Doc

/-- the value of a field in a list of fields -/
def lookupF (fs : Fields) (n : Bytes) : Option Val := (fs.find? fun f => f.1 = n).bind (·.2)

/-- field names differ even after case folding, and `n` is one of them -/
def okName (names : List Bytes) (n : Bytes) : Bool := decide ((names.map foldName).Nodup) && names.contains n

theorem keysSorted_putFields {m : List (Bytes × Val)} (fs : Fields) (h : KeysSorted m) : KeysSorted (putFields m fs) := by
  unfold putFields
  induction fs generalizing m with
  | nil => exact h
  | cons f fs ih =>
    rw [List.foldl_cons]
    apply ih
    cases f.2 with
    | none => exact h
    | some v => exact keysSorted_mapSet _ _ h

theorem mapGet_putFields (m : List (Bytes × Val)) (fs : Fields) (hn : (fs.map (·.1)).Nodup) (k : Bytes) :
    mapGet (putFields m fs) k = (lookupF fs k).or (mapGet m k) := by
  unfold putFields
  induction fs generalizing m with
  | nil => simp [lookupF]
  | cons f fs ih =>
    obtain ⟨n, o⟩ := f
    simp only [List.map_cons, List.nodup_cons] at hn
    rw [List.foldl_cons, ih _ hn.2]
    by_cases hk : n = k
    · subst hk
      have h0 : lookupF fs n = none := by
        unfold lookupF
        have : fs.find? (fun f => f.1 = n) = none := by
          rw [List.find?_eq_none]
          intro x hx e
          exact hn.1 (List.mem_map.mpr ⟨x, hx, by simpa using e⟩)
        rw [this]; rfl
      rw [h0]
      cases o with
      | none => simp [lookupF]
      | some v => simp [lookupF, mapGet_mapSet_self]
    · have h1 : lookupF ((n, o) :: fs) k = lookupF fs k := by simp [lookupF, hk]
      rw [h1]
      cases o with
      | none => rfl
      | some v => simp [mapGet_mapSet_ne _ _ (Ne.symm hk)]

theorem mem_putFields {m : List (Bytes × Val)} {fs : Fields} {x : Bytes × Val} (h : x ∈ putFields m fs) :
    x.1 ∈ fs.map (·.1) ∨ x ∈ m := by
  unfold putFields at h
  induction fs generalizing m with
  | nil => exact Or.inr h
  | cons f fs ih =>
    obtain ⟨n, o⟩ := f
    rw [List.foldl_cons] at h
    rcases ih h with h | h
    · exact Or.inl (by simp [h])
    · cases o with
      | none => exact Or.inr h
      | some v =>
        rcases mem_mapSet h with rfl | h
        · exact Or.inl (by simp)
        · exact Or.inr h

theorem getAll_eq {m : List (Bytes × Val)} (hs : KeysSorted m) {n : Bytes} (hu : ∀ x ∈ m, foldName x.1 = foldName n → x.1 = n) :
    getAll m n = (mapGet m n).toList := by
  unfold getAll
  induction m with
  | nil => rfl
  | cons x t ih =>
    obtain ⟨k, v⟩ := x
    have ih := ih (keysSorted_tail hs) (fun x hx => hu x (by simp [hx]))
    by_cases hk : foldName k = foldName n
    · have e : k = n := hu (k, v) (by simp) hk
      subst e
      have : mapGet t k = none := map_get_none.mpr (fun x hx e => absurd e.symm (bytesLt_ne (keysSorted_head hs x hx)))
      rw [this] at ih
      simp only [List.filter_cons, decide_true, if_true, List.map_cons, ih, mapGet, Option.toList]
    · have hne : n ≠ k := fun e => hk (by rw [e])
      simp only [List.filter_cons, hk, decide_false, mapGet, if_neg hne]
      simpa using ih

theorem getAll_none {m : List (Bytes × Val)} {n : Bytes} (hu : ∀ x ∈ m, foldName x.1 ≠ foldName n) : getAll m n = [] := by
  unfold getAll
  rw [List.filter_eq_nil_iff.mpr]
  · rfl
  · intro x hx; simpa using hu x hx

theorem fold_inj_of_nodup {names : List Bytes} (h : (names.map foldName).Nodup) {a b : Bytes} (ha : a ∈ names) (hb : b ∈ names)
    (e : foldName a = foldName b) : a = b := by
  induction names with
  | nil => simp at ha
  | cons x t ih =>
    simp only [List.map_cons, List.nodup_cons] at h
    rcases List.mem_cons.mp ha with ea | ha' <;> rcases List.mem_cons.mp hb with eb | hb'
    · rw [ea, eb]
    · exact absurd (List.mem_map.mpr ⟨b, hb', by rw [← e, ea]⟩) h.1
    · exact absurd (List.mem_map.mpr ⟨a, ha', by rw [e, eb]⟩) h.1
    · exact ih h.2 ha' hb'

theorem nodup_of_map {α β : Type} (f : α → β) : ∀ {l : List α}, (l.map f).Nodup → l.Nodup
  | [], _ => List.nodup_nil
  | a :: l, h => by
    simp only [List.map_cons, List.nodup_cons] at h
    exact List.nodup_cons.mpr ⟨fun hm => h.1 (List.mem_map_of_mem hm), nodup_of_map f h.2⟩

/-- reading one field back from an encoded struct written over other members -/
theorem getAll_put {m : List (Bytes × Val)} (hs : KeysSorted m) (fs : Fields) {n : Bytes}
    (hm : ∀ x ∈ m, foldName x.1 ≠ foldName n) (h : okName (fs.map (·.1)) n = true) :
    getAll (putFields m fs) n = (lookupF fs n).toList := by
  simp only [okName, Bool.and_eq_true, decide_eq_true_eq, List.contains_iff_mem] at h
  obtain ⟨hnd, hmem⟩ := h
  rw [getAll_eq (keysSorted_putFields fs hs)]
  · rw [mapGet_putFields m fs (nodup_of_map foldName hnd)]
    have : mapGet m n = none := map_get_none.mpr (fun x hx e => hm x hx (by rw [e]))
    rw [this, Option.or_none]
  · intro x hx e
    rcases mem_putFields hx with hx | hx
    · exact fold_inj_of_nodup hnd hx hmem e
    · exact absurd e (hm x hx)

theorem getAll_enc (fs : Fields) {n : Bytes} (h : okName (fs.map (·.1)) n = true) : getAll (encFields fs) n = (lookupF fs n).toList :=
  getAll_put (m := []) (by simp [KeysSorted]) fs (by simp) h

/-- a name that matches no field is not there -/
theorem getAll_enc_none (fs : Fields) {n : Bytes} (h : ∀ k ∈ fs.map (·.1), foldName k ≠ foldName n) : getAll (encFields fs) n = [] := by
  apply getAll_none
  intro x hx
  rcases mem_putFields hx with hx | hx
  · exact h _ hx
  · simp at hx

/-! ### Each kind of field -/

theorem toList_none {α : Type} : (none : Option α).toList = [] := rfl
theorem toList_some {α : Type} (a : α) : (some a).toList = [a] := rfl

theorem decStr_omit (s : Bytes) : decStr (omitStr s).toList = .ok s := by
  unfold omitStr; split
  · rename_i h; subst h; rfl
  · rfl
theorem decStr_one (s : Bytes) : decStr (some (Val.str s)).toList = .ok s := rfl
theorem decStr_nil : decStr (none : Option Val).toList = .ok [] := rfl
theorem decInt_omit (i : Int) (h : IsInt64 i) : decInt (omitInt i).toList = .ok i := by
  unfold omitInt; split
  · rename_i h; subst h; rfl
  · simp only [toList_some, decInt, List.foldlM_cons, List.foldlM_nil]
    rw [if_pos h]; rfl
theorem decBool_omit (b : Bool) : decBool (omitBool b).toList = .ok b := by cases b <;> rfl
theorem decVal_omit (v : Val) (h : isJson v = true) : decVal (omitVal v).toList = .ok v := by
  unfold omitVal; split
  · rename_i h; subst h; rfl
  · simp only [toList_some, decVal, List.foldlM_cons, List.foldlM_nil, h, if_true]; rfl
theorem decVal_one (v : Val) (h : isJson v = true) : decVal (some v).toList = .ok v := by
  simp only [toList_some, decVal, List.foldlM_cons, List.foldlM_nil, h, if_true]; rfl

/-- empty map and nil map are not distinguished -/
def normMap {α : Type} (m : Option (List (Bytes × α))) : Option (List (Bytes × α)) :=
  match m with
  | some [] => none
  | m => m
/-- empty slice and nil slice are not distinguished -/
def normList {α : Type} (l : Option (List α)) : Option (List α) :=
  match l with
  | some [] => none
  | l => l

theorem decAnyMap_omit (m : Option (List (Bytes × Val))) (h : ∀ l, m = some l → isJsonM l = true) :
    decOpt decAnyMap (omitMap m).toList = .ok (normMap m) := by
  cases m with
  | none => rfl
  | some l =>
    cases l with
    | nil => rfl
    | cons x l =>
      simp only [omitMap, toList_some, decOpt, decAnyMap, h _ rfl, if_true, normMap]
      rfl

theorem decOpt_map {α : Type} (f : Val → D α) (g : α → Val) (o : Option α) (hn : ∀ x, o = some x → g x ≠ .null)
    {n : α → α} (h : ∀ x, o = some x → f (g x) = .ok (n x)) : decOpt f (o.map g).toList = .ok (o.map n) := by
  cases o with
  | none => rfl
  | some x =>
    have h1 := h x rfl
    have h2 := hn x rfl
    simp only [Option.map_some, toList_some]
    unfold decOpt
    split
    · rename_i e; cases e
    · rename_i e; simp only [List.cons.injEq, and_true] at e; exact absurd e h2
    · rename_i e; simp only [List.cons.injEq, and_true] at e; subst e; rw [h1]; rfl
    · rename_i e; exact absurd rfl (e _)

theorem mapM_ok {α β : Type} (f : Val → D β) (g : α → Val) (n : α → β) : ∀ (l : List α), (∀ x ∈ l, f (g x) = .ok (n x)) →
    (l.map g).mapM f = .ok (l.map n)
  | [], _ => rfl
  | x :: l, h => by
    rw [List.map_cons, List.mapM_cons, h x (by simp), mapM_ok f g n l (fun y hy => h y (by simp [hy]))]
    rfl

theorem decList_put {α β : Type} (f : Val → D β) (g : α → Val) (n : α → β) (o : Option (List α))
    (h : ∀ l, o = some l → ∀ x ∈ l, f (g x) = .ok (n x)) : decOpt (decList f) (putList g o).toList = .ok (o.map (·.map n)) := by
  cases o with
  | none => rfl
  | some l =>
    simp only [putList, Option.map_some, toList_some, decOpt, decList, mapM_ok f g n l (h l rfl)]
    rfl

theorem decList_omit {α β : Type} (f : Val → D β) (g : α → Val) (n : α → β) (o : Option (List α))
    (h : ∀ l, o = some l → ∀ x ∈ l, f (g x) = .ok (n x)) : decOpt (decList f) (omitList g o).toList = .ok ((normList o).map (·.map n)) := by
  cases o with
  | none => rfl
  | some l =>
    cases l with
    | nil => rfl
    | cons x l =>
      simp only [omitList, toList_some, decOpt, decList, mapM_ok f g n (x :: l) (h _ rfl)]
      rfl

theorem decStrs_put (o : Option (List Bytes)) : decOpt (decList decStrElem) (putList .str o).toList = .ok o := by
  rw [decList_put decStrElem .str id o (fun _ _ _ _ => rfl)]
  cases o <;> simp

theorem mapM_pairs {α β : Type} (f : Val → D β) (g : α → Val) (n : α → β) : ∀ (l : List (Bytes × α)), (∀ x ∈ l, f (g x.2) = .ok (n x.2)) →
    (l.map fun kv => (kv.1, g kv.2)).mapM (fun kv => (f kv.2).map fun a => (kv.1, a)) = .ok (l.map fun kv => (kv.1, n kv.2))
  | [], _ => rfl
  | x :: l, h => by
    rw [List.map_cons, List.mapM_cons, h x (by simp), mapM_pairs f g n l (fun y hy => h y (by simp [hy]))]
    rfl

theorem decMap_enc {α β : Type} (f : Val → D β) (g : α → Val) (n : α → β) (o : Option (List (Bytes × α)))
    (h : ∀ l, o = some l → ∀ x ∈ l, f (g x.2) = .ok (n x.2)) :
    decOpt (decMapOf f) (encMapOf g o).toList = .ok ((normMap o).map (·.map fun kv => (kv.1, n kv.2))) := by
  cases o with
  | none => rfl
  | some l =>
    cases l with
    | nil => rfl
    | cons x l =>
      have hh := mapM_pairs f g n (x :: l) (h _ rfl)
      simp only [List.map_cons] at hh
      simp only [encMapOf, Option.map_some, List.map_cons, omitMap, toList_some, decOpt, decMapOf, hh]
      rfl

theorem decPtr_ptr {α : Type} (f : Val → D α) (g : α → Val) (o : Option α) (hn : ∀ x, g x ≠ .null) (h : ∀ x, o = some x → f (g x) = .ok x) :
    decPtr f (ptr g o) = .ok o := by
  cases o with
  | none => rfl
  | some x =>
    have h1 := h x rfl
    have h2 := hn x
    simp only [ptr]
    unfold decPtr
    split
    · rename_i e; exact absurd e h2
    · rw [h1]; rfl

theorem bind_ok {α β : Type} (a : α) (f : α → D β) : (Except.ok a : D α) >>= f = f a := rfl
theorem pure_ok {α : Type} (a : α) : (pure a : D α) = .ok a := rfl

end Verif.Doc
