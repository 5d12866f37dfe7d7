import Verif.Lemmas.DocText
import Verif.Lemmas.JsonEnc
/-
C74: documents read from JSON trees (`Model/DocJson`) and from text (`Model/DocText`) are the same documents.
-/
set_option autoImplicit false
namespace Verif.DocText
open Doc JsonStd
open JsonG (Tree)

mutual
/-- a tree of the text and a JSON tree are the same: names and strings decoded, numbers taken as integers or as floats, members in the
order of their names without repetition; what reads as a time is written without escapes -/
def Means (F : FloatCodec) : Tree → Val → Prop
  | .null, .null => True
  | .bool b, .bool c => b = c
  | .num t, .int i => Vals.parseInteger t = some i ∧ (F.parse t).isSome = true
  | .num t, .f64 x => F.parse t = some x
  | .str t, .str s => s = unquote t ∧ (parseTime s ≠ none → t = s)
  | .arr l, .arr vs => MeansL F l vs
  | .obj m, .obj kvs => MeansF F m kvs ∧ KeysSorted kvs
  | _, _ => False
def MeansL (F : FloatCodec) : List Tree → List Val → Prop
  | [], [] => True
  | T :: l, v :: vs => Means F T v ∧ MeansL F l vs
  | _, _ => False
def MeansF (F : FloatCodec) : List (Bytes × Tree) → List (Bytes × Val) → Prop
  | [], [] => True
  | (k, T) :: m, (k', v) :: kvs => k' = unquote k ∧ Means F T v ∧ MeansF F m kvs
  | _, _ => False
end

/-- the second reading gives the same as the first, and fails where the first reports a mismatch -/
def Agree {α : Type} (a b : D α) : Prop :=
  (∀ x, a = .ok x → b = .ok x) ∧ (a = .error .mismatch → ∀ x, b ≠ .ok x)

theorem agree_ok {α : Type} (x : α) : Agree (.ok x) (.ok x) := ⟨fun _ h => h, fun h => by cases h⟩
theorem agree_mismatch {α : Type} : Agree (α := α) (.error .mismatch) (.error .mismatch) := ⟨fun _ h => (by cases h), fun _ _ h => by cases h⟩
theorem agree_outside {α : Type} (b : D α) : Agree (.error .outside) b := ⟨fun _ h => (by cases h), fun h => by cases h⟩

theorem agree_bind {α β : Type} {a b : D α} (h : Agree a b) {f g : α → D β} (hf : ∀ x, Agree (f x) (g x)) : Agree (a >>= f) (b >>= g) := by
  cases a with
  | ok x => rw [h.1 x rfl]; exact hf x
  | error e =>
    cases e with
    | outside => exact agree_outside _
    | mismatch =>
      refine ⟨fun _ h => (by cases h), fun _ x hx => ?_⟩
      cases b with
      | ok y => exact h.2 rfl y rfl
      | error e => cases hx

theorem agree_map {α β : Type} {a b : D α} (h : Agree a b) (f : α → β) : Agree (a.map f) (b.map f) := by
  cases a with
  | ok x => rw [h.1 x rfl]; exact agree_ok _
  | error e =>
    cases e with
    | outside => exact agree_outside _
    | mismatch =>
      refine ⟨fun _ h => (by cases h), fun _ x hx => ?_⟩
      cases b with
      | ok y => exact h.2 rfl y rfl
      | error e => cases hx

/-! ### Members -/

theorem getAll_means (F : FloatCodec) (n : Bytes) : ∀ (m : List (Bytes × Tree)) (kvs : List (Bytes × Val)), MeansF F m kvs →
    MeansL F (getAll m n) (Doc.getAll kvs n)
  | [], [], _ => trivial
  | [], _ :: _, h => by simp [MeansF] at h
  | _ :: _, [], h => by simp [MeansF] at h
  | (k, T) :: m, (k', v) :: kvs, h => by
    simp only [MeansF] at h
    obtain ⟨rfl, h1, h2⟩ := h
    have ih := getAll_means F n m kvs h2
    unfold getAll Doc.getAll at ih ⊢
    by_cases hk : foldName (unquote k) = foldName n
    · simp only [List.filter_cons, hk, decide_true, if_true, List.map_cons, MeansL]; exact ⟨h1, ih⟩
    · simp only [List.filter_cons, hk, decide_false, Bool.false_eq_true, if_false]; exact ih

theorem agree_fold (F : FloatCodec) {α : Type} (g : α → Val → D α) (f : Into α) (h : ∀ T v old, Means F T v → Agree (g old v) (f T old)) :
    ∀ (Ts : List Tree) (vs : List Val), MeansL F Ts vs → ∀ old, Agree (vs.foldlM g old) (Ts.foldlM (fun acc T => f T acc) old)
  | [], [], _, old => agree_ok old
  | [], _ :: _, h, _ => by simp [MeansL] at h
  | _ :: _, [], h, _ => by simp [MeansL] at h
  | T :: Ts, v :: vs, hm, old => by
    simp only [MeansL] at hm
    simp only [List.foldlM_cons]
    exact agree_bind (h T v old hm.1) fun x => agree_fold F g f h Ts vs hm.2 x

variable {F : FloatCodec} {m : List (Bytes × Tree)} {kvs : List (Bytes × Val)}

theorem agree_str (h : MeansF F m kvs) (n : Bytes) : Agree (decStr (Doc.getAll kvs n)) (fld intoStr m n []) := by
  refine agree_fold F _ intoStr ?_ _ _ (getAll_means F n m kvs h) []
  intro T v old hm
  cases T <;> cases v <;> simp only [Means] at hm <;> first | (rw [hm.1]; exact agree_ok _) | exact agree_ok _ | exact agree_mismatch

theorem agree_bool (h : MeansF F m kvs) (n : Bytes) : Agree (decBool (Doc.getAll kvs n)) (fld intoBool m n false) := by
  refine agree_fold F _ intoBool ?_ _ _ (getAll_means F n m kvs h) false
  intro T v old hm
  cases T <;> cases v <;> simp only [Means] at hm <;> first | exact agree_ok _ | exact agree_mismatch | (subst hm; exact agree_ok _)

theorem agree_int (h : MeansF F m kvs) (n : Bytes) : Agree (decInt (Doc.getAll kvs n)) (fld intoInt m n 0) := by
  refine agree_fold F _ intoInt ?_ _ _ (getAll_means F n m kvs h) 0
  intro T v old hm
  cases T <;> cases v <;> simp only [Means] at hm <;> first | exact agree_ok _ | exact agree_mismatch | exact agree_outside _ | skip
  rename_i t i
  simp only [intoInt, hm.1]
  have hi : IsInt64 i := by
    have := hm.1
    rw [Vals.parseInteger_eq] at this
    cases t with
    | nil => cases this
    | cons c t =>
      simp only [atoi] at this
      cases hn : (if c = 45 ∨ c = 43 then parseNat t else parseNat (c :: t)) with
      | none => rw [hn] at this; cases this
      | some n =>
        rw [hn] at this
        have e := Option.ite_none_right_eq_some.1 this
        rw [← Option.some.inj e.2]; exact e.1
  simp only [hi, if_true]; exact agree_ok _

theorem agree_time (h : MeansF F m kvs) (n : Bytes) : Agree (decTime (Doc.getAll kvs n)) (fld intoTime m n {}) := by
  refine agree_fold F _ intoTime ?_ _ _ (getAll_means F n m kvs h) {}
  intro T v old hm
  cases T <;> cases v <;> simp only [Means] at hm <;> first | exact agree_ok _ | exact agree_mismatch | skip
  rename_i t s
  simp only [intoTime]
  cases hp : parseTime s with
  | none => exact agree_outside _
  | some x =>
    have e : t = s := hm.2 (by simp [hp])
    subst e
    simp only [hp]
    exact agree_ok _

/-! ### Values -/

/-- same names, and same values where the value is one of JSON -/
inductive Near : List (Bytes × Val) → List (Bytes × Val) → Prop
  | nil : Near [] []
  | cons {k k' : Bytes} {v w : Val} {a b : List (Bytes × Val)} (hk : k = k') (hv : isJson v = true → w = v) (h : Near a b) :
      Near ((k, v) :: a) ((k', w) :: b)

mutual
theorem plain_means (F : FloatCodec) : ∀ (T : Tree) (v : Val), Means F T v → ∃ w, plain F T = some w ∧ (isJson v = true → w = v)
  | .null, v, h => by cases v <;> simp only [Means] at h; exact ⟨_, rfl, fun _ => rfl⟩
  | .bool b, v, h => by cases v <;> simp only [Means] at h; subst h; exact ⟨_, rfl, fun _ => rfl⟩
  | .num t, v, h => by
    cases v <;> simp only [Means] at h
    · obtain ⟨x, hx⟩ := Option.isSome_iff_exists.1 h.2
      exact ⟨.f64 x, by simp [plain, hx], fun hj => by simp [isJson] at hj⟩
    · exact ⟨_, by simp only [plain, h]; rfl, fun _ => rfl⟩
  | .str t, v, h => by cases v <;> simp only [Means] at h; exact ⟨_, rfl, fun _ => by rw [h.1]⟩
  | .arr l, v, h => by
    cases v <;> simp only [Means] at h
    obtain ⟨w, hw, hj⟩ := plainL_means F l _ h
    exact ⟨.arr w, by simp [plain, hw], fun h => by simp only [isJson] at h; rw [hj h]⟩
  | .obj m, v, h => by
    cases v <;> simp only [Means] at h
    rename_i kvs
    obtain ⟨w, hw, hk, hj⟩ := plainF_means F m _ h.1
    refine ⟨.obj (mapOf w), by simp [plain, hw], fun hh => ?_⟩
    simp only [isJson] at hh
    rw [hj hh, Json.mapOf_sorted h.2]
theorem plainL_means (F : FloatCodec) : ∀ (l : List Tree) (vs : List Val), MeansL F l vs → ∃ w, plainL F l = some w ∧ (isJsonL vs = true → w = vs)
  | [], [], _ => ⟨[], rfl, fun _ => rfl⟩
  | [], _ :: _, h => by simp [MeansL] at h
  | _ :: _, [], h => by simp [MeansL] at h
  | T :: l, v :: vs, h => by
    simp only [MeansL] at h
    obtain ⟨w, hw, hj⟩ := plain_means F T v h.1
    obtain ⟨ws, hws, hjs⟩ := plainL_means F l vs h.2
    exact ⟨w :: ws, by simp [plainL, hw, hws], fun hh => by simp only [isJsonL, Bool.and_eq_true] at hh; rw [hj hh.1, hjs hh.2]⟩
theorem plainF_means (F : FloatCodec) : ∀ (m : List (Bytes × Tree)) (kvs : List (Bytes × Val)), MeansF F m kvs →
    ∃ w, plainF F m = some w ∧ Near kvs w ∧ (isJsonM kvs = true → w = kvs)
  | [], [], _ => ⟨[], rfl, .nil, fun _ => rfl⟩
  | [], _ :: _, h => by simp [MeansF] at h
  | _ :: _, [], h => by simp [MeansF] at h
  | (k, T) :: m, (k', v) :: kvs, h => by
    simp only [MeansF] at h
    obtain ⟨w, hw, hj⟩ := plain_means F T v h.2.1
    obtain ⟨ws, hws, hp, hjs⟩ := plainF_means F m kvs h.2.2
    exact ⟨(unquote k, w) :: ws, by simp [plainF, hw, hws], .cons h.1 hj hp,
      fun hh => by simp only [isJsonM, Bool.and_eq_true] at hh; rw [hj hh.1, hjs hh.2, h.1]⟩
end

theorem agree_val (h : MeansF F m kvs) (n : Bytes) : Agree (decVal (Doc.getAll kvs n)) (fld (intoAny F) m n .null) := by
  refine agree_fold F _ (intoAny F) ?_ _ _ (getAll_means F n m kvs h) .null
  intro T v old hm
  obtain ⟨w, hw, hj⟩ := plain_means F T v hm
  by_cases hv : isJson v = true
  · simp only [hv, if_true, intoAny, hw, hj hv]; exact agree_ok _
  · simp only [hv, Bool.false_eq_true, if_false]; exact agree_outside _

/-! ### Pointers, maps and slices -/

theorem agree_opt {α : Type} (f : Val → D α) (g : Into (Option α)) (hn : ∀ old, g .null old = .ok none)
    (hg : ∀ T v, Means F T v → v ≠ .null → Agree ((f v).map some) (g T none)) (h : MeansF F m kvs) (n : Bytes) :
    Agree (decOpt f (Doc.getAll kvs n)) (fld g m n none) := by
  have hm := getAll_means F n m kvs h
  unfold fld
  generalize Doc.getAll kvs n = vs at hm
  generalize getAll m n = Ts at hm
  match Ts, vs, hm with
  | [], [], _ => exact agree_ok _
  | [], _ :: _, h => simp [MeansL] at h
  | _ :: _, [], h => simp [MeansL] at h
  | T :: Ts, v :: w :: vs, hm => simp only [decOpt]; exact agree_outside _
  | T :: _ :: _, [v], hm => simp [MeansL] at hm
  | [T], [v], hm =>
    simp only [MeansL, and_true] at hm
    by_cases hv : v = .null
    · subst hv
      cases T <;> simp only [Means] at hm
      simp only [decOpt, List.foldlM_cons, List.foldlM_nil, hn]
      exact agree_ok _
    · have : decOpt f [v] = (f v).map some := by
        cases v <;> first | rfl | exact absurd rfl hv
      rw [this]
      have := hg T v hm hv
      have e : [T].foldlM (fun acc T => g T acc) none = g T none := by
        simp only [List.foldlM_cons, List.foldlM_nil]
        cases g T none <;> rfl
      rw [e]; exact this

theorem not_null {T : Tree} {v : Val} (h : Means F T v) (hv : v ≠ .null) : T ≠ .null := by
  rintro rfl
  cases v <;> simp only [Means] at h
  exact hv rfl

theorem agree_anyMap : ∀ (T : Tree) (v : Val), Means F T v → v ≠ .null → Agree ((decAnyMap v).map some) (intoAnyMap F T none) := by
  intro T v hm hv
  cases T <;> cases v <;> simp only [Means] at hm <;> first | exact absurd rfl hv | exact agree_mismatch | skip
  rename_i m kvs
  obtain ⟨w, hw, _, hj⟩ := plainF_means F m kvs hm.1
  simp only [decAnyMap]
  by_cases hh : isJsonM kvs = true
  · simp only [hh, if_true, intoAnyMap, hw, Option.getD_none]
    have : w.foldl (fun a p => mapSet a p.1 p.2) [] = kvs := by
      have := Json.mapOf_sorted hm.2
      rw [hj hh]; exact this
    rw [this]; exact agree_ok _
  · simp only [hh, Bool.false_eq_true, if_false]; exact agree_outside _

theorem agree_mapM {α : Type} {f : Val → D α} {g : Tree → D α} (hfg : ∀ T v, Means F T v → Agree (f v) (g T)) :
    ∀ (l : List Tree) (vs : List Val), MeansL F l vs → Agree (vs.mapM f) (l.mapM g)
  | [], [], _ => agree_ok _
  | [], _ :: _, h => by simp [MeansL] at h
  | _ :: _, [], h => by simp [MeansL] at h
  | T :: l, v :: vs, h => by
    simp only [MeansL] at h
    simp only [List.mapM_cons]
    exact agree_bind (hfg T v h.1) fun x => agree_bind (agree_mapM hfg l vs h.2) fun y => agree_ok _

theorem agree_list {α : Type} {f : Val → D α} {g : Tree → D α} (hfg : ∀ T v, Means F T v → Agree (f v) (g T)) :
    ∀ (T : Tree) (v : Val), Means F T v → v ≠ .null → Agree ((decList f v).map some) (intoList g T none) := by
  intro T v hm hv
  cases T <;> cases v <;> simp only [Means] at hm <;> first | exact absurd rfl hv | exact agree_mismatch | skip
  exact agree_map (agree_mapM hfg _ _ hm) some

theorem agree_mapMF {α : Type} {f : Val → D α} {g : Tree → D α} (hfg : ∀ T v, Means F T v → Agree (f v) (g T)) :
    ∀ (m : List (Bytes × Tree)) (kvs : List (Bytes × Val)), MeansF F m kvs →
      Agree (kvs.mapM fun kv => (f kv.2).map fun a => (kv.1, a)) (m.mapM fun kv => (g kv.2).map fun a => (unquote kv.1, a))
  | [], [], _ => agree_ok _
  | [], _ :: _, h => by simp [MeansF] at h
  | _ :: _, [], h => by simp [MeansF] at h
  | (k, T) :: m, (k', v) :: kvs, h => by
    simp only [MeansF] at h
    obtain ⟨rfl, h1, h2⟩ := h
    simp only [List.mapM_cons]
    exact agree_bind (agree_map (hfg T v h1) _) fun x => agree_bind (agree_mapMF hfg m kvs h2) fun y => agree_ok _

theorem mapM_keys {α : Type} {f : Val → D α} : ∀ (kvs : List (Bytes × Val)) (r : List (Bytes × α)),
    (kvs.mapM fun kv => (f kv.2).map fun a => (kv.1, a)) = .ok r → r.map (·.1) = kvs.map (·.1)
  | [], r, h => by cases h; rfl
  | (k, v) :: kvs, r, h => by
    simp only [List.mapM_cons] at h
    cases hf : f v with
    | error e => rw [hf] at h; cases h
    | ok a =>
      rw [hf] at h
      cases hr : (kvs.mapM fun kv => (f kv.2).map fun a => (kv.1, a)) with
      | error e => rw [hr] at h; cases h
      | ok r' =>
        rw [hr] at h
        cases h
        simp [mapM_keys kvs r' hr]

theorem keysSorted_of_keys {α β : Type} {a : List (Bytes × α)} {b : List (Bytes × β)} (e : a.map (·.1) = b.map (·.1)) (h : KeysSorted b) : KeysSorted a := by
  have h1 : (b.map (·.1)).Pairwise fun x y => bytesLt x y = true := List.pairwise_map.2 h
  rw [← e] at h1
  exact List.pairwise_map.1 h1

theorem agree_mapOf {α : Type} {f : Val → D α} {g : Tree → D α} (hfg : ∀ T v, Means F T v → Agree (f v) (g T)) :
    ∀ (T : Tree) (v : Val), Means F T v → v ≠ .null → Agree ((decMapOf f v).map some) (intoMapOf g T none) := by
  intro T v hm hv
  cases T <;> cases v <;> simp only [Means] at hm <;> first | exact absurd rfl hv | exact agree_mismatch | skip
  rename_i m kvs
  have h := agree_mapMF hfg m kvs hm.1
  simp only [decMapOf, intoMapOf, Option.getD_none]
  cases hr : (kvs.mapM fun kv => (f kv.2).map fun a => (kv.1, a)) with
  | error e =>
    rw [hr] at h
    cases e with
    | outside => exact agree_outside _
    | mismatch =>
      refine ⟨fun _ h => (by cases h), fun _ x hx => ?_⟩
      cases hb : (m.mapM fun kv => (g kv.2).map fun a => (unquote kv.1, a)) with
      | ok y => exact h.2 rfl y hb
      | error e => rw [hb] at hx; cases hx
  | ok r =>
    rw [hr] at h
    rw [h.1 r rfl]
    have hs : KeysSorted r := keysSorted_of_keys (mapM_keys kvs r hr) hm.2
    have : r.foldl (fun a p => mapSet a p.1 p.2) [] = r := Json.mapOf_sorted hs
    simp only [Except.map, this]
    exact agree_ok _

theorem agree_strElem : ∀ (T : Tree) (v : Val), Means F T v → Agree (decStrElem v) (strElem T) := by
  intro T v hm
  cases T <;> cases v <;> simp only [Means] at hm <;> first | (rw [hm.1]; exact agree_ok _) | exact agree_ok _ | exact agree_mismatch

theorem agree_ptr {α : Type} {f : Val → D α} {g : Tree → D (Option α)} (h0 : g .null = .ok none)
    (hfg : ∀ T v, Means F T v → v ≠ .null → Agree ((f v).map some) (g T)) : ∀ (T : Tree) (v : Val), Means F T v → Agree (decPtr f v) (g T) := by
  intro T v hm
  by_cases hv : v = .null
  · subst hv
    cases T <;> simp only [Means] at hm
    rw [h0]; exact agree_ok _
  · have : decPtr f v = (f v).map some := by cases v <;> first | rfl | exact absurd rfl hv
    rw [this]; exact hfg T v hm hv

theorem agree_struct {α : Type} {f : List (Bytes × Val) → D α} {g : List (Bytes × Tree) → α → D α} {zero : α}
    (hfg : ∀ m kvs, MeansF F m kvs → Agree (f kvs) (g m zero)) :
    ∀ (T : Tree) (v : Val), Means F T v → v ≠ .null → Agree ((decStruct f v).map some) (intoPtr (intoStruct g) zero T none) := by
  intro T v hm hv
  rw [intoPtr_ne _ _ _ _ (not_null hm hv)]
  cases T <;> cases v <;> simp only [Means] at hm <;> first | exact absurd rfl hv | exact agree_mismatch | skip
  exact agree_map (hfg _ _ hm.1) some

theorem agree_component {α : Type} {dec : Val → D α} {ref : Bytes → α} {zero : α} {f : List (Bytes × Val) → D α} {g : List (Bytes × Tree) → D α}
    (h1 : ∀ p, dec (.str p) = .ok (ref p)) (h2 : dec .null = .ok zero) (h3 : ∀ m, dec (.obj m) = f m)
    (h4 : ∀ v, (∀ p, v ≠ .str p) → v ≠ .null → (∀ m, v ≠ .obj m) → dec v = .error .mismatch)
    (hfg : ∀ m kvs, MeansF F m kvs → KeysSorted kvs → Agree (f kvs) (g m)) :
    ∀ (T : Tree) (v : Val), Means F T v → Agree (dec v) (component ref zero g T) := by
  intro T v hm
  cases T <;> cases v <;> simp only [Means] at hm
  · rw [h2]; exact agree_ok _
  · rw [h4 _ (by simp) (by simp) (by simp)]; exact agree_mismatch
  · rw [h4 _ (by simp) (by simp) (by simp)]; exact agree_mismatch
  · rw [h4 _ (by simp) (by simp) (by simp)]; exact agree_mismatch
  · rw [h1, hm.1]; exact agree_ok _
  · rw [h4 _ (by simp) (by simp) (by simp)]; exact agree_mismatch
  · rw [h3]; exact hfg _ _ hm.1 hm.2

theorem agree_comp {α : Type} {f : Val → D α} {g : Tree → D α} {zero : α} (hfg : ∀ T v, Means F T v → Agree (f v) (g T)) :
    ∀ (T : Tree) (v : Val), Means F T v → v ≠ .null → Agree ((f v).map some) (intoComp g zero T none) := by
  intro T v hm hv
  unfold intoComp
  rw [intoPtr_ne _ _ _ _ (not_null hm hv)]
  exact agree_map (hfg T v hm) some

/-! ### The types -/

theorem agree_user (m : List (Bytes × Tree)) (kvs : List (Bytes × Val)) (h : MeansF F m kvs) : Agree (User.decObj kvs) (userObj m {}) :=
  agree_bind (agree_str h _) fun _ => agree_bind (agree_str h _) fun _ => agree_bind (agree_str h _) fun _ => agree_ok _

theorem agree_license (m : List (Bytes × Tree)) (kvs : List (Bytes × Val)) (h : MeansF F m kvs) : Agree (License.decObj kvs) (licenseObj m {}) :=
  agree_bind (agree_str h _) fun _ => agree_bind (agree_str h _) fun _ => agree_ok _

theorem agree_citation (m : List (Bytes × Tree)) (kvs : List (Bytes × Val)) (h : MeansF F m kvs) : Agree (Citation.decObj kvs) (citationObj m {}) :=
  agree_bind (agree_str h _) fun _ => agree_bind (agree_str h _) fun _ => agree_bind (agree_str h _) fun _ => agree_ok _

theorem agree_step (m : List (Bytes × Tree)) (kvs : List (Bytes × Val)) (h : MeansF F m kvs) : Agree (TransformStep.decObj kvs) (stepObj F m {}) :=
  agree_bind (agree_str h _) fun _ => agree_bind (agree_str h _) fun _ => agree_bind (agree_str h _) fun _ => agree_bind (agree_str h _) fun _ =>
    agree_bind (agree_val h _) fun _ => agree_ok _

theorem agree_commit : ∀ (T : Tree) (v : Val), Means F T v → Agree (Commit.dec v) (commit T) := by
  refine agree_component (f := Commit.decObj) (fun _ => rfl) rfl (fun _ => rfl) (by intro v h1 h2 h3; cases v <;> first | rfl | simp_all) ?_
  intro m kvs h _
  exact agree_bind (agree_opt User.dec _ (fun _ => rfl) (agree_struct agree_user) h _) fun _ => agree_bind (agree_str h _) fun _ =>
    agree_bind (agree_str h _) fun _ => agree_bind (agree_str h _) fun _ => agree_bind (agree_str h _) fun _ => agree_bind (agree_time h _) fun _ =>
    agree_bind (agree_str h _) fun _ => agree_bind (agree_str h _) fun _ => agree_ok _

theorem agree_structure : ∀ (T : Tree) (v : Val), Means F T v → Agree (Structure.dec v) (structure_ F T) := by
  refine agree_component (f := Structure.decObj) (fun _ => rfl) rfl (fun _ => rfl) (by intro v h1 h2 h3; cases v <;> first | rfl | simp_all) ?_
  intro m kvs h _
  exact agree_bind (agree_str h _) fun _ => agree_bind (agree_str h _) fun _ => agree_bind (agree_int h _) fun _ => agree_bind (agree_str h _) fun _ =>
    agree_bind (agree_int h _) fun _ => agree_bind (agree_int h _) fun _ => agree_bind (agree_str h _) fun _ =>
    agree_bind (agree_opt decAnyMap _ (fun _ => rfl) agree_anyMap h _) fun _ => agree_bind (agree_int h _) fun _ => agree_bind (agree_str h _) fun _ =>
    agree_bind (agree_str h _) fun _ => agree_bind (agree_opt decAnyMap _ (fun _ => rfl) agree_anyMap h _) fun _ =>
    agree_bind (agree_bool h _) fun _ => agree_ok _

theorem agree_stats : ∀ (T : Tree) (v : Val), Means F T v → Agree (Stats.dec v) (stats F T) := by
  refine agree_component (f := Stats.decObj) (fun _ => rfl) rfl (fun _ => rfl) (by intro v h1 h2 h3; cases v <;> first | rfl | simp_all) ?_
  intro m kvs h _
  exact agree_bind (agree_str h _) fun _ => agree_bind (agree_str h _) fun _ => agree_bind (agree_val h _) fun _ => agree_ok _

theorem agree_readme : ∀ (T : Tree) (v : Val), Means F T v → Agree (Readme.dec v) (readme T) := by
  refine agree_component (f := Readme.decObj) (fun _ => rfl) rfl (fun _ => rfl) (by intro v h1 h2 h3; cases v <;> first | rfl | simp_all) ?_
  intro m kvs h _
  exact agree_bind (agree_str h _) fun _ => agree_bind (agree_str h _) fun _ => agree_bind (agree_str h _) fun _ => agree_bind (agree_str h _) fun _ =>
    agree_bind (agree_str h _) fun _ => agree_bind (agree_str h _) fun _ => agree_ok _

theorem agree_viz : ∀ (T : Tree) (v : Val), Means F T v → Agree (Viz.dec v) (viz T) := by
  refine agree_component (f := Viz.decObj) (fun _ => rfl) rfl (fun _ => rfl) (by intro v h1 h2 h3; cases v <;> first | rfl | simp_all) ?_
  intro m kvs h _
  exact agree_bind (agree_str h _) fun _ => agree_bind (agree_str h _) fun _ => agree_bind (agree_str h _) fun _ => agree_bind (agree_str h _) fun _ =>
    agree_bind (agree_str h _) fun _ => agree_bind (agree_str h _) fun _ => agree_ok _

theorem agree_resource : ∀ (T : Tree) (v : Val), Means F T v → v ≠ .null → Agree (decResource v) (resource T) := by
  intro T v hm hv
  cases T <;> cases v <;> simp only [Means] at hm <;> first | exact absurd rfl hv | exact agree_mismatch | skip
  · rw [hm.1]; exact agree_ok _
  · exact agree_str hm.1 _

theorem agree_transform : ∀ (T : Tree) (v : Val), Means F T v → Agree (Transform.dec v) (transform F T) := by
  refine agree_component (f := Transform.decObj) (fun _ => rfl) rfl (fun _ => rfl) (by intro v h1 h2 h3; cases v <;> first | rfl | simp_all) ?_
  intro m kvs h _
  have hres : ∀ T v, Means F T v → Agree (decPtr decResource v) (intoComp resource [] T none) := by
    refine agree_ptr rfl ?_
    intro T v hm hv
    unfold intoComp
    rw [intoPtr_ne _ _ _ _ (not_null hm hv)]
    exact agree_map (agree_resource T v hm hv) some
  have hstep : ∀ T v, Means F T v → Agree (decPtr TransformStep.dec v) (intoPtr (intoStruct (stepObj F)) {} T none) :=
    agree_ptr rfl (agree_struct agree_step)
  exact agree_bind (agree_opt decAnyMap _ (fun _ => rfl) agree_anyMap h _) fun _ => agree_bind (agree_str h _) fun _ => agree_bind (agree_str h _) fun _ =>
    agree_bind (agree_opt (decMapOf (decPtr decResource)) _ (fun _ => rfl) (agree_mapOf hres) h _) fun _ =>
    agree_bind (agree_str h _) fun _ => agree_bind (agree_str h _) fun _ =>
    agree_bind (agree_opt (decMapOf decStrElem) _ (fun _ => rfl) (agree_mapOf agree_strElem) h _) fun _ =>
    agree_bind (agree_opt (decList (decPtr TransformStep.dec)) _ (fun _ => rfl) (agree_list hstep) h _) fun _ =>
    agree_bind (agree_str h _) fun _ => agree_bind (agree_str h _) fun _ =>
    agree_bind (agree_opt (decMapOf decStrElem) _ (fun _ => rfl) (agree_mapOf agree_strElem) h _) fun _ => agree_ok _

theorem near_del {a b : List (Bytes × Val)} (h : Near a b) (k : Bytes) : Near (mapDel a k) (mapDel b k) := by
  induction h with
  | nil => exact .nil
  | cons hk hv _ ih =>
    subst hk
    simp only [mapDel]
    split
    · assumption
    · exact .cons rfl hv ih

theorem near_dels {a b : List (Bytes × Val)} (h : Near a b) (ks : List Bytes) : Near (ks.foldl mapDel a) (ks.foldl mapDel b) := by
  induction ks generalizing a b with
  | nil => exact h
  | cons k ks ih => exact ih (near_del h k)

theorem near_eq {a b : List (Bytes × Val)} (h : Near a b) (hj : isJsonM a = true) : b = a := by
  induction h with
  | nil => rfl
  | cons hk hv _ ih =>
    simp only [isJsonM, Bool.and_eq_true] at hj
    rw [ih hj.2, hv hj.1, hk]

theorem near_keys {a b : List (Bytes × Val)} (h : Near a b) : b.map (·.1) = a.map (·.1) := by
  induction h with
  | nil => rfl
  | cons hk _ _ ih => simp only [List.map_cons, ih, hk]

theorem agree_meta : ∀ (T : Tree) (v : Val), Means F T v → Agree (Meta.dec v) (meta_ F T) := by
  refine agree_component (f := Meta.decObj) (fun _ => rfl) rfl (fun _ => rfl) (by intro v h1 h2 h3; cases v <;> first | rfl | simp_all) ?_
  intro m kvs h hs
  have hcit : ∀ T v, Means F T v → Agree (decPtr Citation.dec v) (intoPtr (intoStruct citationObj) {} T none) := agree_ptr rfl (agree_struct agree_citation)
  have husr : ∀ T v, Means F T v → Agree (decPtr User.dec v) (intoPtr (intoStruct userObj) {} T none) := agree_ptr rfl (agree_struct agree_user)
  refine agree_bind (agree_str h _) fun _ => agree_bind (agree_str h _) fun _ =>
    agree_bind (agree_opt (decList (decPtr Citation.dec)) _ (fun _ => rfl) (agree_list hcit) h _) fun _ =>
    agree_bind (agree_opt (decList (decPtr User.dec)) _ (fun _ => rfl) (agree_list husr) h _) fun _ =>
    agree_bind (agree_str h _) fun _ => agree_bind (agree_str h _) fun _ => agree_bind (agree_str h _) fun _ => agree_bind (agree_str h _) fun _ =>
    agree_bind (agree_opt (decList decStrElem) _ (fun _ => rfl) (agree_list agree_strElem) h _) fun _ =>
    agree_bind (agree_opt (decList decStrElem) _ (fun _ => rfl) (agree_list agree_strElem) h _) fun _ =>
    agree_bind (agree_opt License.dec _ (fun _ => rfl) (agree_struct agree_license) h _) fun _ =>
    agree_bind (agree_str h _) fun _ => agree_bind (agree_str h _) fun _ => agree_bind (agree_str h _) fun _ => agree_bind (agree_str h _) fun _ =>
    agree_bind (agree_opt (decList decStrElem) _ (fun _ => rfl) (agree_list agree_strElem) h _) fun _ =>
    agree_bind (agree_str h _) fun _ => ?_
  obtain ⟨w, hw, hn, _⟩ := plainF_means F m kvs h
  have hws : KeysSorted w := keysSorted_of_keys (near_keys hn) hs
  have hall : intoAnyMap F (.obj m) none = .ok (some w) := by
    have : w.foldl (fun a p => mapSet a p.1 p.2) [] = w := Json.mapOf_sorted hws
    simp only [intoAnyMap, hw, Option.getD_none, this]
  rw [hall]
  by_cases hj : isJsonM (metaReserved.foldl mapDel kvs) = true
  · have e := near_eq (near_dels hn metaReserved) hj
    simp only [hj, if_true]
    show Agree _ (pure _)
    simp only [Option.getD_some, e]
    exact agree_ok _
  · simp only [hj, Bool.false_eq_true, if_false]
    exact agree_outside _

theorem agree_bytes : ∀ (T : Tree) (v : Val), Means F T v → v ≠ .null → Agree ((decBytes v).map some) (intoBytes T none) := by
  intro T v hm hv
  cases T <;> cases v <;> simp only [Means] at hm <;> first | exact absurd rfl hv | exact agree_mismatch | exact agree_outside _ | skip
  rename_i t s
  obtain ⟨rfl, _⟩ := hm
  simp only [decBytes, intoBytes]
  cases b64decNL (unquote t) with
  | none => exact agree_mismatch
  | some b => exact agree_ok _

/-- **C74**: text and JSON trees say the same.  When the text and the tree mean the same, what the tree-level reading of C06 and C07 gives is
what the text gives, and where it reports a type mismatch the text cannot be read. -/
theorem C74_trees (F : FloatCodec) (T : Tree) (v : Val) (h : Means F T v) :
    Agree (Dataset.dec v) (dataset F T) ∧ Agree (Commit.dec v) (commit T) ∧ Agree (Structure.dec v) (structure_ F T) ∧
    Agree (Stats.dec v) (stats F T) ∧ Agree (Transform.dec v) (transform F T) ∧ Agree (Meta.dec v) (meta_ F T) ∧
    Agree (Readme.dec v) (readme T) ∧ Agree (Viz.dec v) (viz T) := by
  refine ⟨?_, agree_commit T v h, agree_structure T v h, agree_stats T v h, agree_transform T v h, agree_meta T v h, agree_readme T v h, agree_viz T v h⟩
  refine agree_component (f := Dataset.decObj) (fun _ => rfl) rfl (fun _ => rfl) (by intro v h1 h2 h3; cases v <;> first | rfl | simp_all) ?_ T v h
  intro m kvs h _
  exact agree_bind (agree_val h _) fun _ => agree_bind (agree_opt decBytes _ (fun _ => rfl) agree_bytes h _) fun _ => agree_bind (agree_str h _) fun _ =>
    agree_bind (agree_opt Commit.dec _ (fun _ => rfl) (agree_comp agree_commit) h _) fun _ => agree_bind (agree_str h _) fun _ =>
    agree_bind (agree_opt Meta.dec _ (fun _ => rfl) (agree_comp agree_meta) h _) fun _ => agree_bind (agree_str h _) fun _ =>
    agree_bind (agree_str h _) fun _ => agree_bind (agree_str h _) fun _ => agree_bind (agree_str h _) fun _ => agree_bind (agree_str h _) fun _ =>
    agree_bind (agree_opt Readme.dec _ (fun _ => rfl) (agree_comp agree_readme) h _) fun _ => agree_bind (agree_int h _) fun _ =>
    agree_bind (agree_str h _) fun _ =>
    agree_bind (agree_opt Structure.dec _ (fun _ => rfl) (agree_comp agree_structure) h _) fun _ =>
    agree_bind (agree_opt Stats.dec _ (fun _ => rfl) (agree_comp agree_stats) h _) fun _ =>
    agree_bind (agree_opt Transform.dec _ (fun _ => rfl) (agree_comp agree_transform) h _) fun _ =>
    agree_bind (agree_opt Viz.dec _ (fun _ => rfl) (agree_comp agree_viz) h _) fun _ => agree_ok _

/-! ### Examples -/

/-- floats for the examples: a text is read as its length -/
def lenF : FloatCodec := { fmt := fun _ => b!"1", parse := fun s => some (UInt64.ofNat s.length) }

/-- a text, its tree and the JSON tree it means: an integer for a count, a float inside of a schema, names in any case -/
example : ∃ T v, tree b!"{\"ENTRIES\":7,\"entries\":null,\"format\":\"\\u0063sv\",\"schema\":{\"x\":1.5},\"strict\":true}" = some T ∧ Means lenF T v ∧
    (Structure.dec v).toOption = some { entries := 7, format := b!"csv", schema := some [(b!"x", .f64 3)], strict := true } := by
  refine ⟨.obj [(b!"ENTRIES", .num b!"7"), (b!"entries", .null), (b!"format", .str b!"\\u0063sv"), (b!"schema", .obj [(b!"x", .num b!"1.5")]), (b!"strict", .bool true)],
    .obj [(b!"ENTRIES", .int 7), (b!"entries", .null), (b!"format", .str b!"csv"), (b!"schema", .obj [(b!"x", .f64 3)]), (b!"strict", .bool true)], rfl, ?_, rfl⟩
  simp only [Means, MeansF, KeysSorted]
  decide +kernel
/-- a number where a text belongs is a mismatch in both -/
example : Means lenF (.obj [(b!"format", .num b!"7")]) (.obj [(b!"format", .int 7)]) ∧
    Structure.dec (.obj [(b!"format", .int 7)]) = .error .mismatch := by
  refine ⟨?_, rfl⟩
  simp only [Means, MeansF, KeysSorted]
  decide +kernel

end Verif.DocText
