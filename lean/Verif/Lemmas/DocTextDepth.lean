import Verif.Lemmas.DocTextRt
/- How deep the text of a document nests, and which documents have a text. -/
set_option autoImplicit false
namespace Verif.DocText
open Doc JsonStd
open Hash (present)

/-! ### nesting -/

def Dl (n : Nat) (v : Val) : Prop := depth v ≤ n

theorem depthF_le (m : List (Bytes × Val)) (n : Nat) : depthF m ≤ n ↔ ∀ x ∈ m, depth x.2 ≤ n := by
  induction m with
  | nil => simp [depthF]
  | cons x m ih => obtain ⟨k, v⟩ := x; simp [depthF, ih, Nat.max_le]
theorem depthL_le (m : List Val) (n : Nat) : depthL m ≤ n ↔ ∀ x ∈ m, depth x ≤ n := by
  induction m with
  | nil => simp [depthL]
  | cons x m ih => simp [depthL, ih, Nat.max_le]
theorem dl_obj {m : List (Bytes × Val)} {n : Nat} (h : ∀ x ∈ m, Dl n x.2) : Dl (n + 1) (.obj m) := by
  unfold Dl
  rw [depth, Nat.add_le_add_iff_right, depthF_le]
  exact h
theorem dl_arr {m : List Val} {n : Nat} (h : ∀ x ∈ m, Dl n x) : Dl (n + 1) (.arr m) := by
  unfold Dl
  rw [depth, Nat.add_le_add_iff_right, depthL_le]
  exact h
theorem dl_str (n : Nat) (s : Bytes) : Dl n (.str s) := by simp [Dl, depth]
theorem dl_int (n : Nat) (s : Int) : Dl n (.int s) := by simp [Dl, depth]
theorem dl_bool (n : Nat) (s : Bool) : Dl n (.bool s) := by simp [Dl, depth]
theorem dl_null (n : Nat) : Dl n .null := by simp [Dl, depth]
theorem dl_mono {n k : Nat} {v : Val} (h : Dl n v) (hk : n ≤ k) : Dl k v := Nat.le_trans h hk
theorem dl_present {fs : Fields} {n : Nat} (h : AllF (Dl n) fs) : Dl (n + 1) (.obj (present fs)) :=
  dl_obj fun _ hx => allF_mem h (mem_present.1 hx)
theorem dl_put {m : List (Bytes × Val)} {fs : Fields} {n : Nat} (h : AllF (Dl n) fs) (hm : ∀ x ∈ m, Dl n x.2) : Dl (n + 1) (.obj (putFields m fs)) := by
  apply dl_obj
  intro x hx
  rcases mem_putFields_val hx with hx | hx
  · exact allF_mem h hx
  · exact hm x hx
theorem dl_putList {α : Type} {f : α → Val} {o : Option (List α)} {n : Nat} (h : ∀ x ∈ o.getD [], Dl n (f x)) : FineO (Dl (n + 1)) (putList f o) := by
  cases o with
  | none => exact fo_none
  | some l =>
    apply fo_some
    apply dl_arr
    intro x hx
    obtain ⟨y, hy, rfl⟩ := List.mem_map.1 hx
    exact h y hy
theorem dl_omitList {α : Type} {f : α → Val} {o : Option (List α)} {n : Nat} (h : ∀ x ∈ o.getD [], Dl n (f x)) : FineO (Dl (n + 1)) (omitList f o) := by
  rcases o with _ | _ | ⟨x, l⟩
  · exact fo_none
  · exact fo_none
  · exact dl_putList (o := some (x :: l)) h
theorem dl_mapOf {α : Type} {f : α → Val} {o : Option (List (Bytes × α))} {n : Nat} (h : ∀ x ∈ o.getD [], Dl n (f x.2)) : FineO (Dl (n + 1)) (encMapOf f o) := by
  rcases o with _ | _ | ⟨x, l⟩
  · exact fo_none
  · exact fo_none
  · apply fo_some
    apply dl_obj
    intro y hy
    obtain ⟨z, hz, rfl⟩ := List.mem_map.1 hy
    exact h z hz
theorem dl_omitMap {o : Option (List (Bytes × Val))} {n : Nat} (h : ∀ x ∈ o.getD [], Dl n x.2) : FineO (Dl (n + 1)) (omitMap o) := by
  rcases o with _ | _ | ⟨x, m⟩
  · exact fo_none
  · exact fo_none
  · exact fo_some (dl_obj h)
theorem dl_ptr {α : Type} {f : α → Val} {o : Option α} {n : Nat} (h : ∀ x, o = some x → Dl n (f x)) : Dl n (ptr f o) := by
  cases o with
  | none => exact dl_null n
  | some x => exact h x rfl

theorem dl_user (n : Nat) (u : User) : Dl (n + 1) (userVal u) := by
  apply dl_present
  simp [User.fields, AllF, allF_cons, fo_omitStr, dl_str]
theorem dl_license (n : Nat) (u : License) : Dl (n + 1) (licenseVal u) := by
  apply dl_present
  simp [License.fields, AllF, allF_cons, fo_omitStr, dl_str]
theorem dl_citation (n : Nat) (u : Citation) : Dl (n + 1) (citationVal u) := by
  apply dl_present
  simp [Citation.fields, AllF, allF_cons, fo_omitStr, dl_str]
theorem dl_step {n : Nat} (s : TransformStep) (h : Dl n s.script) : Dl (n + 1) (stepVal s) := by
  apply dl_present
  simp [TransformStep.fields, AllF, allF_cons, fo_omitStr, fo_some, dl_str, h]
theorem dl_resource (n : Nat) (p : Bytes) : Dl (n + 1) (encResource p) := by
  apply dl_obj
  intro x hx
  have : encFields [(b!"path", some (.str p))] = [(b!"path", .str p)] := rfl
  rw [this, List.mem_singleton] at hx
  subst hx
  exact dl_str n p

theorem dl_commit {n : Nat} {c : Commit} {v : Val} (h : commitVal c = some v) : Dl (n + 2) v := by
  unfold commitVal at h
  split at h
  · cases h; exact dl_str _ _
  · obtain ⟨tt, _, rfl⟩ := Option.map_eq_some_iff.1 h
    apply dl_present
    have h1 : FineO (Dl (n + 1)) (c.author.map userVal) := fo_map fun x _ => dl_user n x
    simp [commitFields, AllF, allF_cons, fo_omitStr, dl_str, h1]

theorem dl_structure {n : Nat} (s : Structure) (h1 : ∀ x ∈ s.formatConfig.getD [], Dl n x.2) (h2 : ∀ x ∈ s.schema.getD [], Dl n x.2) :
    Dl (n + 2) (structureVal s) := by
  unfold structureVal
  split
  · exact dl_str _ _
  · apply dl_present
    simp [Structure.fields, AllF, allF_cons, fo_omitStr, fo_omitInt, fo_omitBool, dl_str, dl_int, dl_bool, dl_omitMap h1, dl_omitMap h2]

theorem dl_stats {n : Nat} (s : Stats) (h : Dl n s.stats) : Dl (n + 1) (statsVal s) := by
  unfold statsVal
  split
  · exact dl_str _ _
  · apply dl_present
    simp [Stats.fields, AllF, allF_cons, fo_omitStr, fo_omitVal, dl_str, h]

theorem dl_transform {n : Nat} (q : Transform) (h1 : ∀ x ∈ q.config.getD [], Dl n x.2)
    (h2 : ∀ x ∈ q.steps.getD [], ∀ s, x = some s → Dl n s.script) : Dl (n + 3) (transformVal q) := by
  unfold transformVal
  split
  · exact dl_str _ _
  · apply dl_present
    have e1 : FineO (Dl (n + 2)) (omitMap q.config) := dl_omitMap fun x hx => dl_mono (h1 x hx) (by omega)
    have e2 : FineO (Dl (n + 2)) (encMapOf (ptr encResource) q.resources) := dl_mapOf fun x _ => dl_ptr fun p _ => dl_resource n p
    have e3 : FineO (Dl (n + 2)) (omitList (ptr stepVal) q.steps) := dl_omitList fun x hx => dl_ptr fun s hs => dl_step s (h2 x hx s hs)
    have e4 : FineO (Dl (n + 2)) (encMapOf .str q.syntaxes) := dl_mapOf fun x _ => dl_str _ _
    simp [transformFields, AllF, allF_cons, fo_omitStr, dl_str, e1, e2, e3, e4]

theorem dl_readme (n : Nat) (r : Readme) : Dl (n + 1) r.enc := by
  unfold Readme.enc
  split
  · exact dl_str _ _
  · refine dl_put (m := []) ?_ (by simp)
    simp [Readme.fields, AllF, allF_cons, fo_omitStr, fo_some, dl_str]
theorem dl_viz (n : Nat) (r : Viz) : Dl (n + 1) r.enc := by
  unfold Viz.enc
  split
  · exact dl_str _ _
  · refine dl_put (m := []) ?_ (by simp)
    simp [Viz.fields, AllF, allF_cons, fo_omitStr, fo_some, dl_str]

theorem dl_meta {n : Nat} (m : Meta) (h : ∀ x ∈ m.arbitrary.getD [], Dl n x.2) : Dl (n + 3) (metaVal m) := by
  unfold metaVal
  split
  · exact dl_str _ _
  · apply dl_put
    · have h2 : FineO (Dl (n + 2)) (putList (ptr citationVal) m.citations) := dl_putList fun x _ => dl_ptr fun c _ => dl_citation n c
      have h3 : FineO (Dl (n + 2)) (putList (ptr userVal) m.contributors) := dl_putList fun x _ => dl_ptr fun c _ => dl_user n c
      have h4 : FineO (Dl (n + 2)) (putList .str m.keywords) := dl_putList fun x _ => dl_str _ x
      have h5 : FineO (Dl (n + 2)) (putList .str m.language) := dl_putList fun x _ => dl_str _ x
      have h6 : FineO (Dl (n + 2)) (putList .str m.theme) := dl_putList fun x _ => dl_str _ x
      have h7 : FineO (Dl (n + 2)) (m.license.map licenseVal) := fo_map fun x _ => dl_license (n + 1) x
      simp [metaFields, AllF, allF_cons, fo_omitStr, fo_some, dl_str, h2, h3, h4, h5, h6, h7]
    · exact fun x hx => dl_mono (h x hx) (by omega)

/-- no value in the document nests deeper than `n` -/
structure Levels (d : Dataset) (n : Nat) : Prop where
  body : depth d.body ≤ n
  meta_ : ∀ m, d.meta_ = some m → ∀ x ∈ m.arbitrary.getD [], depth x.2 ≤ n
  formatConfig : ∀ s, d.structure_ = some s → ∀ x ∈ s.formatConfig.getD [], depth x.2 ≤ n
  schema : ∀ s, d.structure_ = some s → ∀ x ∈ s.schema.getD [], depth x.2 ≤ n
  stats : ∀ s, d.stats = some s → depth s.stats ≤ n
  config : ∀ q, d.transform = some q → ∀ x ∈ q.config.getD [], depth x.2 ≤ n
  steps : ∀ q, d.transform = some q → ∀ x ∈ q.steps.getD [], ∀ s, x = some s → depth s.script ≤ n

theorem dl_dataset {n : Nat} {d : Dataset} {v : Val} (h : Levels d n) (hv : datasetVal d = some v) : Dl (n + 4) v := by
  unfold datasetVal at hv
  split at hv
  · cases hv; exact dl_str _ _
  · obtain ⟨cm, hcm, rfl⟩ := Option.map_eq_some_iff.1 hv
    apply dl_present
    have e0 : FineO (Dl (n + 3)) cm := by
      unfold encComp at hcm
      split at hcm
      · cases hcm; exact fo_none
      · obtain ⟨w, hw, rfl⟩ := Option.map_eq_some_iff.1 hcm
        exact fo_some (dl_commit (n := n + 1) hw)
    have e1 : FineO (Dl (n + 3)) (d.meta_.map metaVal) := fo_map fun x hx => dl_meta x (h.meta_ x hx)
    have e2 : FineO (Dl (n + 3)) (d.readme.map Readme.enc) := fo_map fun x _ => dl_readme (n + 2) x
    have e3 : FineO (Dl (n + 3)) (d.structure_.map structureVal) :=
      fo_map fun x hx => dl_mono (dl_structure x (h.formatConfig x hx) (h.schema x hx)) (by omega)
    have e4 : FineO (Dl (n + 3)) (d.stats.map statsVal) := fo_map fun x hx => dl_mono (dl_stats x (h.stats x hx)) (by omega)
    have e5 : FineO (Dl (n + 3)) (d.transform.map transformVal) := fo_map fun x hx => dl_transform x (h.config x hx) (h.steps x hx)
    have e6 : FineO (Dl (n + 3)) (d.viz.map Viz.enc) := fo_map fun x _ => dl_viz (n + 2) x
    have e7 : Dl (n + 3) d.body := dl_mono h.body (by omega)
    simp [datasetFields, AllF, allF_cons, fo_omitStr, fo_omitInt, fo_omitVal, fo_omitBytes, dl_str, dl_int, e0, e1, e2, e3, e4, e5, e6, e7]

/-! ### documents that have a text -/

/-- no number in it is infinite or NaN -/
def J (v : Val) : Prop := jsonOK v = true

theorem j_obj (m : List (Bytes × Val)) : J (.obj m) ↔ ∀ x ∈ m, J x.2 := by rw [J, jsonOK, jsonOKF_iff]; rfl
theorem j_arr (m : List Val) : J (.arr m) ↔ ∀ x ∈ m, J x := by rw [J, jsonOK, jsonOKL_iff]; rfl
theorem j_str (s : Bytes) : J (.str s) ↔ True := iff_true_intro rfl
theorem j_null : J .null ↔ True := iff_true_intro rfl
theorem allF_nil (P : Val → Prop) : AllF P [] ↔ True := by simp [AllF]
theorem allF_iff (P : Val → Prop) (fs : Fields) : AllF P fs ↔ ∀ k v, (k, some v) ∈ fs → P v := by
  constructor
  · intro h k v hm; exact allF_mem h hm
  · intro h
    induction fs with
    | nil => exact (allF_nil P).2 trivial
    | cons f fs ih =>
      obtain ⟨k, o⟩ := f
      rw [allF_cons]
      exact ⟨fun v hv => h k v (by simp [hv]), ih fun k v hm => h k v (by simp [hm])⟩
theorem j_present (fs : Fields) : J (.obj (present fs)) ↔ AllF J fs := by
  rw [j_obj, allF_iff]
  exact ⟨fun h k v hm => h (k, v) (mem_present.2 hm), fun h x hx => h _ _ (mem_present.1 hx)⟩
theorem fj_some (v : Val) : FineO J (some v) ↔ J v := by simp [FineO]
theorem fj_none : FineO J none ↔ True := by simp [FineO]
theorem fj_omitStr (s : Bytes) : FineO J (omitStr s) ↔ True := iff_true_intro (fo_omitStr rfl)
theorem fj_omitInt (i : Int) : FineO J (omitInt i) ↔ True := iff_true_intro (fo_omitInt rfl)
theorem fj_omitBool (b : Bool) : FineO J (omitBool b) ↔ True := iff_true_intro (fo_omitBool rfl)
theorem fj_omitBytes (b : Option Bytes) : FineO J (omitBytes b) ↔ True := iff_true_intro (fo_omitBytes fun _ => rfl)
theorem fj_omitVal (v : Val) : FineO J (omitVal v) ↔ J v := by
  unfold omitVal
  split
  · rename_i h
    simp only [fj_none, true_iff]
    rw [h]
    rfl
  · exact fj_some v
theorem fj_omitMap (o : Option (List (Bytes × Val))) : FineO J (omitMap o) ↔ ∀ x ∈ o.getD [], J x.2 := by
  rcases o with _ | _ | ⟨x, m⟩
  · simp [omitMap, fj_none]
  · simp [omitMap, fj_none]
  · show FineO J (some (.obj (x :: m))) ↔ _
    rw [fj_some, j_obj]; rfl
theorem fj_putList {α : Type} (f : α → Val) (o : Option (List α)) : FineO J (putList f o) ↔ ∀ x ∈ o.getD [], J (f x) := by
  cases o with
  | none => simp [putList, fj_none]
  | some l => simp [putList, fj_some, j_arr]
theorem fj_omitList {α : Type} (f : α → Val) (o : Option (List α)) : FineO J (omitList f o) ↔ ∀ x ∈ o.getD [], J (f x) := by
  rcases o with _ | _ | ⟨x, m⟩
  · simp [omitList, fj_none]
  · simp [omitList, fj_none]
  · exact fj_putList f (some (x :: m))
theorem fj_mapOf {α : Type} (f : α → Val) (o : Option (List (Bytes × α))) : FineO J (encMapOf f o) ↔ ∀ x ∈ o.getD [], J (f x.2) := by
  rcases o with _ | _ | ⟨x, m⟩
  · simp [encMapOf, omitMap, fj_none]
  · simp [encMapOf, omitMap, fj_none]
  · show FineO J (some (.obj ((x :: m).map fun kv => (kv.1, f kv.2)))) ↔ _
    rw [fj_some, j_obj]
    constructor
    · intro h y hy
      exact h _ (List.mem_map_of_mem (f := fun kv => (kv.1, f kv.2)) hy)
    · intro h y hy
      obtain ⟨z, hz, rfl⟩ := List.mem_map.1 hy
      exact h z hz
theorem fj_map {α : Type} (f : α → Val) (o : Option α) : FineO J (o.map f) ↔ ∀ x, o = some x → J (f x) := by
  cases o with
  | none => simp [fj_none]
  | some x => simp [fj_some]
theorem j_ptr {α : Type} (f : α → Val) (o : Option α) : J (ptr f o) ↔ ∀ x, o = some x → J (f x) := by
  cases o with
  | none => simp [ptr, j_null]
  | some x => simp [ptr]

theorem j_user (u : User) : J (userVal u) ↔ True := by
  simp only [userVal, j_present, User.fields, allF_cons, allF_nil, fj_omitStr, and_self]
theorem j_license (u : License) : J (licenseVal u) ↔ True := by
  simp only [licenseVal, j_present, License.fields, allF_cons, allF_nil, fj_omitStr, and_self]
theorem j_citation (u : Citation) : J (citationVal u) ↔ True := by
  simp only [citationVal, j_present, Citation.fields, allF_cons, allF_nil, fj_omitStr, and_self]
theorem j_step (s : TransformStep) : J (stepVal s) ↔ J s.script := by
  simp only [stepVal, j_present, TransformStep.fields, allF_cons, allF_nil, fj_omitStr, fj_some, j_str, true_and, and_true]
theorem j_resource (p : Bytes) : J (encResource p) ↔ True := by
  have : encFields [(b!"path", some (.str p))] = [(b!"path", .str p)] := rfl
  rw [encResource, this, j_obj]
  simp [j_str]

theorem j_commit {c : Commit} {v : Val} (h : commitVal c = some v) : J v := by
  unfold commitVal at h
  split at h
  · cases h; rfl
  · obtain ⟨tt, _, rfl⟩ := Option.map_eq_some_iff.1 h
    simp only [j_present, commitFields, allF_cons, allF_nil, fj_omitStr, fj_some, j_str, fj_map, j_user, implies_true, and_self]

theorem j_structure (s : Structure) : J (structureVal s) ↔
    (s.path ≠ [] ∧ s.encoding = [] ∧ s.schema = none) ∨ (∀ x ∈ s.formatConfig.getD [], J x.2) ∧ (∀ x ∈ s.schema.getD [], J x.2) := by
  unfold structureVal
  split
  · rename_i h; simp only [j_str, true_iff]; exact Or.inl h
  · rename_i h
    rw [j_present]
    simp only [Structure.fields, allF_cons, allF_nil, fj_omitStr, fj_omitInt, fj_omitBool, fj_some, j_str, fj_omitMap, true_and, and_true]
    exact ⟨Or.inr, fun h' => h'.resolve_left h⟩

theorem j_stats (s : Stats) : J (statsVal s) ↔ (s.path ≠ [] ∧ s.isEmpty = true) ∨ J s.stats := by
  unfold statsVal
  split
  · rename_i h; simp only [j_str, true_iff]; exact Or.inl h
  · rename_i h
    rw [j_present]
    simp only [Stats.fields, allF_cons, allF_nil, fj_omitStr, fj_omitVal, true_and, and_true]
    exact ⟨Or.inr, fun h' => h'.resolve_left h⟩

theorem j_transform (q : Transform) : J (transformVal q) ↔ (q.path ≠ [] ∧ q.isEmpty = true) ∨
    (∀ x ∈ q.config.getD [], J x.2) ∧ ∀ x ∈ q.steps.getD [], ∀ s, x = some s → J s.script := by
  unfold transformVal
  split
  · rename_i h; simp only [j_str, true_iff]; exact Or.inl h
  · rename_i h
    rw [j_present]
    simp only [transformFields, allF_cons, allF_nil, fj_omitStr, fj_none, fj_omitMap, fj_mapOf, fj_omitList, j_ptr, j_resource, j_step, j_str,
      implies_true, true_and, and_true]
    exact ⟨Or.inr, fun h' => h'.resolve_left h⟩

theorem j_readme (r : Readme) : J r.enc := by
  unfold Readme.enc
  split
  · rfl
  · show J (.obj (putFields [] _))
    rw [j_obj]
    intro x hx
    rcases mem_putFields_val hx with hx | hx
    · refine (allF_iff J _).1 ?_ _ _ hx
      simp only [Readme.fields, allF_cons, allF_nil, fj_omitStr, fj_some, j_str, and_self]
    · cases hx
theorem j_viz (r : Viz) : J r.enc := by
  unfold Viz.enc
  split
  · rfl
  · show J (.obj (putFields [] _))
    rw [j_obj]
    intro x hx
    rcases mem_putFields_val hx with hx | hx
    · refine (allF_iff J _).1 ?_ _ _ hx
      simp only [Viz.fields, allF_cons, allF_nil, fj_omitStr, fj_some, j_str, and_self]
    · cases hx

theorem j_metaFields (m : Meta) : AllF J (metaFields m) := by
  simp only [metaFields, allF_cons, allF_nil, fj_omitStr, fj_some, j_str, fj_putList, j_ptr, j_citation, j_user, fj_map, j_license, implies_true, and_self]

theorem j_meta (m : Meta) (hs : KeysSorted (m.arbitrary.getD [])) (hn : ∀ x ∈ m.arbitrary.getD [], x.1 ∉ metaNames) :
    J (metaVal m) ↔ (m.path ≠ [] ∧ m.isEmpty = true) ∨ ∀ x ∈ m.arbitrary.getD [], J x.2 := by
  unfold metaVal
  split
  · rename_i h; simp only [j_str, true_iff]; exact Or.inl h
  · rename_i h
    have hfs : KeysSorted (putFields (m.arbitrary.getD []) (metaFields m)) := keysSorted_putFields _ hs
    constructor
    · intro hj
      refine Or.inr fun x hx => ?_
      rw [j_obj] at hj
      apply hj
      rw [← map_get_mem hfs, mapGet_putFields _ _ (by rw [metaFields_names]; decide +kernel)]
      have : lookupF (metaFields m) x.1 = none := by
        apply lookupF_none
        rw [metaFields_names]
        intro hm
        have hall : ∀ n ∈ metaOrder, n ∈ metaNames := by decide +kernel
        exact hn x hx (hall _ hm)
      rw [this]
      exact (map_get_mem hs).2 hx
    · intro h'
      rw [j_obj]
      intro x hx
      rcases mem_putFields_val hx with hx | hx
      · exact (allF_iff J _).1 (j_metaFields m) _ _ hx
      · exact (h'.resolve_left h) x hx

theorem commitVal_isSome (c : Commit) : (commitVal c).isSome = true ↔ (c.path ≠ [] ∧ c.isEmpty = true) ∨ (0 ≤ c.timestamp.year ∧ c.timestamp.year ≤ 9999) := by
  unfold commitVal encTime
  by_cases h : c.path ≠ [] ∧ c.isEmpty = true
  · rw [if_pos h]; simp [h]
  · rw [if_neg h]
    by_cases h2 : 0 ≤ c.timestamp.year ∧ c.timestamp.year ≤ 9999
    · rw [if_pos h2]; simp [h2]
    · rw [if_neg h2]
      simp only [Option.map_none, Option.isSome_none, Bool.false_eq_true, false_iff]
      intro h3
      rcases h3 with h3 | h3
      · exact h h3
      · exact h2 h3

end Verif.DocText
