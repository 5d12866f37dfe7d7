import Verif.Model.Doc
import Verif.Lemmas.Map
/-
C02: `Assign` is last-non-empty-wins merging (commit.go:67, meta.go:240, structure.go:263,
stats.go:30, transform.go:198, readme.go:163, viz.go:163, dataset.go:352).
Components are values here; sharing of pointers is the subject of C03 (Verif/Props/Heap.lean).
-/
namespace Verif.Doc

/-! ### Specification -/

/-- the last value of a list that differs from the empty value `e`; `e` if there is none -/
def lastNE {α : Type} [DecidableEq α] (e : α) (l : List α) : α := ((l.filter fun a => a ≠ e).getLast?).getD e

/-- the first such value -/
def firstNE {α : Type} [DecidableEq α] (e : α) (l : List α) : α := ((l.filter fun a => a ≠ e).head?).getD e

/-- field `f` of the receiver and of every non-nil argument, in order -/
def vals {α β : Type} (f : α → β) (x : α) (l : List (Option α)) : List β := f x :: (l.filterMap id).map f

/-- `vals` for a field of an optional component: absent components count as empty -/
def cvals {δ α β : Type} (comp : δ → Option α) (f : α → β) (e : β) (d : δ) (l : List (Option δ)) : List β :=
  vals (fun d => ((comp d).map f).getD e) d l

/-! ### Generic lemmas -/

theorem lastNE_step {α : Type} [DecidableEq α] (e a b : α) (l : List α) :
    lastNE e (a :: b :: l) = lastNE e ((if b = e then a else b) :: l) := by
  unfold lastNE
  by_cases h : b = e
  · simp [h, List.filter_cons]
  · simp only [h, if_false, List.filter_cons]
    by_cases h' : a = e <;> simp [h, h', List.getLast?_cons]

theorem lastNE_one {α : Type} [DecidableEq α] (e a : α) : lastNE e [a] = a := by
  unfold lastNE
  by_cases h : a = e <;> simp [h]

theorem firstNE_step {α : Type} [DecidableEq α] (e a b : α) (l : List α) :
    firstNE e (a :: b :: l) = firstNE e ((if a = e then b else a) :: l) := by
  unfold firstNE
  by_cases h : a = e
  · simp [h, List.filter_cons]
  · simp [h, List.filter_cons]

theorem firstNE_one {α : Type} [DecidableEq α] (e a : α) : firstNE e [a] = a := by
  unfold firstNE
  by_cases h : a = e <;> simp [h]

/-- a field that is overwritten when set ends up with the last set value -/
theorem assignAll_lastNE {α β : Type} [DecidableEq β] (g : α → α → α) (f : α → β) (e : β)
    (h : ∀ x y, f (g x y) = if f y = e then f x else f y) (x : α) (l : List (Option α)) :
    f (assignAll g x l) = lastNE e (vals f x l) := by
  induction l generalizing x with
  | nil => simp [assignAll, vals, lastNE_one]
  | cons o l ih =>
    cases o with
    | none => rw [assignAll, ih]; simp [vals]
    | some y =>
      rw [assignAll, ih]
      simp only [vals, List.filterMap_cons, id, List.map_cons]
      rw [lastNE_step, h]

theorem assignAll_firstNE {α β : Type} [DecidableEq β] (g : α → α → α) (f : α → β) (e : β)
    (h : ∀ x y, f (g x y) = if f x = e then f y else f x) (x : α) (l : List (Option α)) :
    f (assignAll g x l) = firstNE e (vals f x l) := by
  induction l generalizing x with
  | nil => simp [assignAll, vals, firstNE_one]
  | cons o l ih =>
    cases o with
    | none => rw [assignAll, ih]; simp [vals]
    | some y =>
      rw [assignAll, ih]
      simp only [vals, List.filterMap_cons, id, List.map_cons]
      rw [firstNE_step, h]

theorem assignAll_const {α β : Type} (g : α → α → α) (f : α → β) (h : ∀ x y, f (g x y) = f x) (x : α) (l : List (Option α)) :
    f (assignAll g x l) = f x := by
  induction l generalizing x with
  | nil => rfl
  | cons o l ih => cases o <;> simp [assignAll, ih, h]

theorem setStr_eq (a b : Bytes) : setStr a b = if b = [] then a else b := rfl
theorem setOpt_eq {α : Type} [DecidableEq α] (a b : Option α) : setOpt a b = if b = none then a else b := by
  cases b <;> simp [setOpt]
theorem setInt_eq (a b : Int) : setInt a b = if b = 0 then a else b := rfl
theorem setVal_eq (a b : Val) : setVal a b = if b = .null then a else b := rfl
theorem setTime_eq (a b : Time) : setTime a b = if b = {} then a else b := by simp [setTime, Time.isZero]

/-! ### Components -/

/-- **C02 (commit)** -/
theorem C02_commit (x : Commit) (l : List (Option Commit)) :
    (x.assign l).author = lastNE none (vals Commit.author x l) ∧
    (x.assign l).message = lastNE [] (vals Commit.message x l) ∧
    (x.assign l).path = lastNE [] (vals Commit.path x l) ∧
    (x.assign l).qri = lastNE [] (vals Commit.qri x l) ∧
    (x.assign l).signature = lastNE [] (vals Commit.signature x l) ∧
    (x.assign l).timestamp = lastNE {} (vals Commit.timestamp x l) ∧
    (x.assign l).title = lastNE [] (vals Commit.title x l) ∧
    (x.assign l).runID = lastNE [] (vals Commit.runID x l) := by
  refine ⟨?_, ?_, ?_, ?_, ?_, ?_, ?_, ?_⟩ <;>
    refine assignAll_lastNE _ _ _ (fun x y => ?_) x l <;>
    simp only [Commit.assign1, setStr_eq, setOpt_eq, setTime_eq]

/-- **C02 (meta)** -/
theorem C02_meta (x : Meta) (l : List (Option Meta)) :
    (x.assign l).arbitrary = lastNE none (vals Meta.arbitrary x l) ∧
    (x.assign l).accessURL = lastNE [] (vals Meta.accessURL x l) ∧
    (x.assign l).accrualPeriodicity = lastNE [] (vals Meta.accrualPeriodicity x l) ∧
    (x.assign l).citations = lastNE none (vals Meta.citations x l) ∧
    (x.assign l).contributors = lastNE none (vals Meta.contributors x l) ∧
    (x.assign l).description = lastNE [] (vals Meta.description x l) ∧
    (x.assign l).downloadURL = lastNE [] (vals Meta.downloadURL x l) ∧
    (x.assign l).homeURL = lastNE [] (vals Meta.homeURL x l) ∧
    (x.assign l).identifier = lastNE [] (vals Meta.identifier x l) ∧
    (x.assign l).keywords = lastNE none (vals Meta.keywords x l) ∧
    (x.assign l).language = lastNE none (vals Meta.language x l) ∧
    (x.assign l).license = lastNE none (vals Meta.license x l) ∧
    (x.assign l).path = lastNE [] (vals Meta.path x l) ∧
    (x.assign l).qri = lastNE [] (vals Meta.qri x l) ∧
    (x.assign l).readmeURL = lastNE [] (vals Meta.readmeURL x l) ∧
    (x.assign l).title = lastNE [] (vals Meta.title x l) ∧
    (x.assign l).theme = lastNE none (vals Meta.theme x l) ∧
    (x.assign l).version = lastNE [] (vals Meta.version x l) := by
  refine ⟨?_, ?_, ?_, ?_, ?_, ?_, ?_, ?_, ?_, ?_, ?_, ?_, ?_, ?_, ?_, ?_, ?_, ?_⟩ <;>
    refine assignAll_lastNE _ _ _ (fun x y => ?_) x l <;>
    simp only [Meta.assign1, setStr_eq, setOpt_eq]

/-- **C02 (structure)** -/
theorem C02_structure (x : Structure) (l : List (Option Structure)) :
    (x.assign l).checksum = lastNE [] (vals Structure.checksum x l) ∧
    (x.assign l).compression = lastNE [] (vals Structure.compression x l) ∧
    (x.assign l).depth = lastNE 0 (vals Structure.depth x l) ∧
    (x.assign l).encoding = lastNE [] (vals Structure.encoding x l) ∧
    (x.assign l).errCount = lastNE 0 (vals Structure.errCount x l) ∧
    (x.assign l).entries = lastNE 0 (vals Structure.entries x l) ∧
    (x.assign l).format = lastNE [] (vals Structure.format x l) ∧
    (x.assign l).formatConfig = lastNE none (vals Structure.formatConfig x l) ∧
    (x.assign l).length = lastNE 0 (vals Structure.length x l) ∧
    (x.assign l).path = lastNE [] (vals Structure.path x l) ∧
    (x.assign l).qri = lastNE [] (vals Structure.qri x l) ∧
    (x.assign l).schema = lastNE none (vals Structure.schema x l) ∧
    (x.assign l).strict = lastNE false (vals Structure.strict x l) := by
  refine ⟨?_, ?_, ?_, ?_, ?_, ?_, ?_, ?_, ?_, ?_, ?_, ?_, ?_⟩ <;>
    refine assignAll_lastNE _ _ _ (fun x y => ?_) x l <;>
    simp only [Structure.assign1, setStr_eq, setOpt_eq, setInt_eq]
  cases y.strict <;> simp

/-- **C02 (stats)** -/
theorem C02_stats (x : Stats) (l : List (Option Stats)) :
    (x.assign l).path = lastNE [] (vals Stats.path x l) ∧
    (x.assign l).qri = lastNE [] (vals Stats.qri x l) ∧
    (x.assign l).stats = lastNE .null (vals Stats.stats x l) := by
  refine ⟨?_, ?_, ?_⟩ <;>
    refine assignAll_lastNE _ _ _ (fun x y => ?_) x l <;>
    simp only [Stats.assign1, setStr_eq, setVal_eq]

/-- **C02 (readme)**: the rendered file is never assigned -/
theorem C02_readme (x : Readme) (l : List (Option Readme)) :
    (x.assign l).format = lastNE [] (vals Readme.format x l) ∧
    (x.assign l).path = lastNE [] (vals Readme.path x l) ∧
    (x.assign l).qri = lastNE [] (vals Readme.qri x l) ∧
    (x.assign l).scriptFile = lastNE none (vals Readme.scriptFile x l) ∧
    (x.assign l).renderedFile = x.renderedFile ∧
    (x.assign l).scriptPath = lastNE [] (vals Readme.scriptPath x l) ∧
    (x.assign l).text = lastNE [] (vals Readme.text x l) ∧
    (x.assign l).renderedPath = lastNE [] (vals Readme.renderedPath x l) := by
  refine ⟨?_, ?_, ?_, ?_, assignAll_const Readme.assign1 Readme.renderedFile (fun _ _ => rfl) x l, ?_, ?_, ?_⟩ <;>
    refine assignAll_lastNE _ _ _ (fun x y => ?_) x l <;>
    simp only [Readme.assign1, setStr_eq, setOpt_eq]

/-- **C02 (viz)**: the rendered file is never assigned -/
theorem C02_viz (x : Viz) (l : List (Option Viz)) :
    (x.assign l).format = lastNE [] (vals Viz.format x l) ∧
    (x.assign l).path = lastNE [] (vals Viz.path x l) ∧
    (x.assign l).qri = lastNE [] (vals Viz.qri x l) ∧
    (x.assign l).scriptFile = lastNE none (vals Viz.scriptFile x l) ∧
    (x.assign l).renderedFile = x.renderedFile ∧
    (x.assign l).scriptPath = lastNE [] (vals Viz.scriptPath x l) ∧
    (x.assign l).text = lastNE [] (vals Viz.text x l) ∧
    (x.assign l).renderedPath = lastNE [] (vals Viz.renderedPath x l) := by
  refine ⟨?_, ?_, ?_, ?_, assignAll_const Viz.assign1 Viz.renderedFile (fun _ _ => rfl) x l, ?_, ?_, ?_⟩ <;>
    refine assignAll_lastNE _ _ _ (fun x y => ?_) x l <;>
    simp only [Viz.assign1, setStr_eq, setOpt_eq]

/-! ### Transform: maps merge key by key -/

/-- a nil-able map satisfies the representation invariant -/
def OptSorted {α : Type} (m : Option (List (Bytes × α))) : Prop := ∀ l, m = some l → KeysSorted l

/-- the maps of a transform are maps -/
def Transform.MapsOK (t : Transform) : Prop := OptSorted t.config ∧ OptSorted t.resources ∧ OptSorted t.secrets

theorem optSorted_mergeMap {α : Type} {a b : Option (List (Bytes × α))} (h : OptSorted a) : OptSorted (mergeMap a b) := by
  intro l hl
  cases b with
  | none => exact h l hl
  | some m =>
    simp only [mergeMap, Option.some.injEq] at hl
    subst hl
    refine keysSorted_foldSet m ?_
    cases a with
    | none => simp [KeysSorted]
    | some a => exact h a rfl

theorem get_mergeMap {α : Type} {a b : Option (List (Bytes × α))} (hb : OptSorted b) (k : Bytes) :
    (mergeMap a b).bind (mapGet · k) = (b.bind (mapGet · k)).or (a.bind (mapGet · k)) := by
  cases b with
  | none => simp [mergeMap]
  | some m =>
    simp only [mergeMap, Option.bind_some]
    rw [mapGet_foldSet (hb m rfl)]
    cases a <;> simp [mapGet]

theorem assignAll_last_or {α β : Type} (g : α → α → α) (P : α → Prop) (f : α → Option β)
    (h : ∀ x y, P y → f (g x y) = (f y).or (f x)) (x : α) (l : List (Option α)) (hl : ∀ y, some y ∈ l → P y) :
    f (assignAll g x l) = (((vals f x l).filterMap id).getLast?) := by
  induction l generalizing x with
  | nil => cases h : f x <;> simp [assignAll, vals, h]
  | cons o l ih =>
    cases o with
    | none => rw [assignAll, ih x (fun y hy => hl y (by simp [hy]))]; simp [vals]
    | some y =>
      rw [assignAll, ih _ (fun y hy => hl y (by simp [hy]))]
      simp only [vals, List.filterMap_cons, id, List.map_cons]
      rw [h x y (hl y (by simp))]
      cases f y <;> cases f x <;> simp [List.getLast?_cons]

/-- the value bound to `k` in a nil-able map -/
def keyIn {α : Type} (m : Option (List (Bytes × α))) (k : Bytes) : Option α := m.bind (mapGet · k)

/-- **C02 (transform)**: plain fields as for the other components; in the three maps each key has
its last bound value, and a map is nil iff it is nil everywhere. -/
theorem C02_transform (x : Transform) (l : List (Option Transform)) (hl : ∀ y, some y ∈ l → y.MapsOK) :
    (x.assign l).path = lastNE [] (vals Transform.path x l) ∧
    (x.assign l).qri = lastNE [] (vals Transform.qri x l) ∧
    (x.assign l).scriptFile = lastNE none (vals Transform.scriptFile x l) ∧
    (x.assign l).scriptPath = lastNE [] (vals Transform.scriptPath x l) ∧
    (x.assign l).text = lastNE [] (vals Transform.text x l) ∧
    (x.assign l).steps = lastNE none (vals Transform.steps x l) ∧
    (x.assign l).syntaxName = lastNE [] (vals Transform.syntaxName x l) ∧
    (x.assign l).syntaxVersion = lastNE [] (vals Transform.syntaxVersion x l) ∧
    (x.assign l).syntaxes = lastNE none (vals Transform.syntaxes x l) ∧
    (∀ k, keyIn (x.assign l).config k = ((vals (fun t => keyIn t.config k) x l).filterMap id).getLast?) ∧
    (∀ k, keyIn (x.assign l).resources k = ((vals (fun t => keyIn t.resources k) x l).filterMap id).getLast?) ∧
    (∀ k, keyIn (x.assign l).secrets k = ((vals (fun t => keyIn t.secrets k) x l).filterMap id).getLast?) ∧
    ((x.assign l).config = none ↔ ∀ m ∈ vals Transform.config x l, m = none) ∧
    ((x.assign l).resources = none ↔ ∀ m ∈ vals Transform.resources x l, m = none) ∧
    ((x.assign l).secrets = none ↔ ∀ m ∈ vals Transform.secrets x l, m = none) := by
  have nilIff : ∀ {β : Type} (f : Transform → Option (List (Bytes × β))), (∀ x y, f (Transform.assign1 x y) = mergeMap (f x) (f y)) →
      (f (x.assign l) = none ↔ ∀ m ∈ vals f x l, m = none) := by
    intro β f h
    clear hl
    unfold Transform.assign
    induction l generalizing x with
    | nil => simp [assignAll, vals]
    | cons o l ih =>
      cases o with
      | none => refine (ih x).trans ?_; simp [vals]
      | some y =>
        refine (ih _).trans ?_
        simp only [vals, List.filterMap_cons, id, List.map_cons, List.mem_cons, forall_eq_or_imp, h]
        cases f y with
        | none => simp [mergeMap]
        | some m => simp [mergeMap]
  refine ⟨?_, ?_, ?_, ?_, ?_, ?_, ?_, ?_, ?_, ?_, ?_, ?_, nilIff _ (fun _ _ => rfl), nilIff _ (fun _ _ => rfl), nilIff _ (fun _ _ => rfl)⟩
  case refine_10 =>
    intro k
    exact assignAll_last_or Transform.assign1 Transform.MapsOK (fun t => keyIn t.config k) (fun x y hy => get_mergeMap hy.1 k) x l hl
  case refine_11 =>
    intro k
    exact assignAll_last_or Transform.assign1 Transform.MapsOK (fun t => keyIn t.resources k) (fun x y hy => get_mergeMap hy.2.1 k) x l hl
  case refine_12 =>
    intro k
    exact assignAll_last_or Transform.assign1 Transform.MapsOK (fun t => keyIn t.secrets k) (fun x y hy => get_mergeMap hy.2.2 k) x l hl
  all_goals
    refine assignAll_lastNE _ _ _ (fun x y => ?_) x l
    simp only [Transform.assign1, setStr_eq, setOpt_eq]

/-! ### Algebra -/

/-- assigning in two calls is assigning in one, for every component and the dataset -/
theorem C02_two_calls {α : Type} (g : α → α → α) (x : α) (a b : List (Option α)) :
    assignAll g (assignAll g x a) b = assignAll g x (a ++ b) := by
  induction a generalizing x with
  | nil => rfl
  | cons o a ih => cases o <;> simp [assignAll, ih]

/-- nil arguments are skipped -/
theorem C02_nil_skipped {α : Type} (g : α → α → α) (x : α) (a b : List (Option α)) :
    assignAll g x (a ++ none :: b) = assignAll g x (a ++ b) := by
  rw [← C02_two_calls, ← C02_two_calls, assignAll]

theorem setStr_twice (a b : Bytes) : setStr (setStr a b) b = setStr a b := by
  unfold setStr; split <;> simp_all
theorem setOpt_twice {α : Type} (a b : Option α) : setOpt (setOpt a b) b = setOpt a b := by cases b <;> rfl
theorem setInt_twice (a b : Int) : setInt (setInt a b) b = setInt a b := by unfold setInt; split <;> simp_all
theorem setVal_twice (a b : Val) : setVal (setVal a b) b = setVal a b := by unfold setVal; split <;> simp_all
theorem setTime_twice (a b : Time) : setTime (setTime a b) b = setTime a b := by unfold setTime; split <;> simp_all

theorem option_map_ext {α : Type} {a b : Option (List (Bytes × α))} (ha : OptSorted a) (hb : OptSorted b)
    (hn : a = none ↔ b = none) (h : ∀ k, keyIn a k = keyIn b k) : a = b := by
  cases a with
  | none => exact (hn.mp rfl).symm
  | some m =>
    cases b with
    | none => exact hn.mpr rfl
    | some n => rw [map_ext (ha m rfl) (hb n rfl) (fun k => h k)]

theorem mergeMap_none_iff {α : Type} (a b : Option (List (Bytes × α))) : mergeMap a b = none ↔ a = none ∧ b = none := by
  cases b <;> simp [mergeMap]

theorem mergeMap_assoc {α : Type} {a b c : Option (List (Bytes × α))} (ha : OptSorted a) (hb : OptSorted b) (hc : OptSorted c) :
    mergeMap (mergeMap a b) c = mergeMap a (mergeMap b c) := by
  refine option_map_ext (optSorted_mergeMap (optSorted_mergeMap ha)) (optSorted_mergeMap ha) ?_ ?_
  · simp only [mergeMap_none_iff, and_assoc]
  · intro k
    simp only [keyIn, get_mergeMap hc, get_mergeMap hb, get_mergeMap (optSorted_mergeMap hb), Option.or_assoc]

theorem mergeMap_self {α : Type} {a : Option (List (Bytes × α))} (ha : OptSorted a) : mergeMap a a = a := by
  refine option_map_ext (optSorted_mergeMap ha) ha ?_ ?_
  · simp [mergeMap_none_iff]
  · intro k; simp only [keyIn, get_mergeMap ha, Option.or_self]

theorem mergeMap_none_left {α : Type} {b : Option (List (Bytes × α))} (hb : OptSorted b) : mergeMap none b = b := by
  refine option_map_ext (optSorted_mergeMap (by intro l h; cases h)) hb ?_ ?_
  · simp [mergeMap_none_iff]
  · intro k; simp [keyIn, get_mergeMap hb]

theorem mergeMap_twice {α : Type} {a b : Option (List (Bytes × α))} (ha : OptSorted a) (hb : OptSorted b) :
    mergeMap (mergeMap a b) b = mergeMap a b := by
  rw [mergeMap_assoc ha hb hb, mergeMap_self hb]

theorem setStr_assoc (a b c : Bytes) : setStr (setStr a b) c = setStr a (setStr b c) := by
  by_cases hc : c = [] <;> simp [setStr, hc]
theorem setOpt_assoc {α : Type} (a b c : Option α) : setOpt (setOpt a b) c = setOpt a (setOpt b c) := by
  cases b <;> cases c <;> rfl
theorem setInt_assoc (a b c : Int) : setInt (setInt a b) c = setInt a (setInt b c) := by
  by_cases hc : c = 0 <;> simp [setInt, hc]
theorem setVal_assoc (a b c : Val) : setVal (setVal a b) c = setVal a (setVal b c) := by
  by_cases hc : c = .null <;> simp [setVal, hc]
theorem setTime_assoc (a b c : Time) : setTime (setTime a b) c = setTime a (setTime b c) := by
  by_cases hc : c.isZero = true <;> simp [setTime, hc]

theorem setStr_self (a : Bytes) : setStr a a = a := by simp [setStr]
theorem setOpt_self {α : Type} (a : Option α) : setOpt a a = a := by cases a <;> rfl
theorem setInt_self (a : Int) : setInt a a = a := by simp [setInt]
theorem setVal_self (a : Val) : setVal a a = a := by simp [setVal]
theorem setTime_self (a : Time) : setTime a a = a := by simp [setTime]

/-- `Assign` as an operation is a monoid on each component: the empty component is neutral on both
sides, it is associative (merging `y` and `z` first and then assigning the result is the same as
assigning both), and every component is idempotent. -/
structure AssignLaws {α : Type} (op : α → α → α) (e : α) (ok : α → Prop) : Prop where
  left : ∀ x, ok x → op e x = x
  right : ∀ x, op x e = x
  assoc : ∀ x y z, ok x → ok y → ok z → op (op x y) z = op x (op y z)
  idem : ∀ x, ok x → op x x = x
  closed : ∀ x y, ok x → ok y → ok (op x y)

theorem setStr_left (a : Bytes) : setStr [] a = a := by unfold setStr; split <;> simp_all
theorem setOpt_left {α : Type} (a : Option α) : setOpt none a = a := by cases a <;> rfl
theorem setInt_left (a : Int) : setInt 0 a = a := by unfold setInt; split <;> simp_all
theorem setVal_left (a : Val) : setVal .null a = a := by unfold setVal; split <;> simp_all
theorem setTime_left (a : Time) : setTime {} a = a := by unfold setTime Time.isZero; split <;> simp_all
theorem setTime_right (a : Time) : setTime a {} = a := rfl

theorem C02_commit_laws : AssignLaws Commit.assign1 {} (fun _ => True) where
  left x _ := by simp [Commit.assign1, setStr_left, setOpt_left, setTime_left]
  right x := by simp [Commit.assign1, setStr, setOpt, setTime_right]
  assoc x y z _ _ _ := by simp [Commit.assign1, setStr_assoc, setOpt_assoc, setTime_assoc]
  idem x _ := by simp [Commit.assign1, setStr_self, setOpt_self, setTime_self]
  closed _ _ _ _ := trivial

theorem C02_meta_laws : AssignLaws Meta.assign1 {} (fun _ => True) where
  left x _ := by simp [Meta.assign1, setStr_left, setOpt_left]
  right x := by simp [Meta.assign1, setStr, setOpt]
  assoc x y z _ _ _ := by simp [Meta.assign1, setStr_assoc, setOpt_assoc]
  idem x _ := by simp [Meta.assign1, setStr_self, setOpt_self]
  closed _ _ _ _ := trivial

theorem C02_structure_laws : AssignLaws Structure.assign1 {} (fun _ => True) where
  left x _ := by simp [Structure.assign1, setStr_left, setOpt_left, setInt_left]
  right x := by simp [Structure.assign1, setStr, setOpt, setInt]
  assoc x y z _ _ _ := by
    simp only [Structure.assign1, setStr_assoc, setOpt_assoc, setInt_assoc]
    obtain ⟨_, _, _, _, _, _, _, _, _, _, _, _, c⟩ := z
    cases c <;> simp
  idem x _ := by simp [Structure.assign1, setStr_self, setOpt_self, setInt_self]
  closed _ _ _ _ := trivial

theorem C02_stats_laws : AssignLaws Stats.assign1 {} (fun _ => True) where
  left x _ := by simp [Stats.assign1, setStr_left, setVal_left]
  right x := by simp [Stats.assign1, setStr, setVal]
  assoc x y z _ _ _ := by simp [Stats.assign1, setStr_assoc, setVal_assoc]
  idem x _ := by simp [Stats.assign1, setStr_self, setVal_self]
  closed _ _ _ _ := trivial

theorem C02_transform_laws : AssignLaws Transform.assign1 {} Transform.MapsOK where
  left x h := by simp [Transform.assign1, setStr_left, setOpt_left, mergeMap_none_left h.1, mergeMap_none_left h.2.1, mergeMap_none_left h.2.2]
  right x := by simp [Transform.assign1, setStr, setOpt, mergeMap]
  assoc x y z hx hy hz := by
    simp only [Transform.assign1, setStr_assoc, setOpt_assoc, mergeMap_assoc hx.1 hy.1 hz.1, mergeMap_assoc hx.2.1 hy.2.1 hz.2.1,
      mergeMap_assoc hx.2.2 hy.2.2 hz.2.2]
  idem x h := by simp [Transform.assign1, setStr_self, setOpt_self, mergeMap_self h.1, mergeMap_self h.2.1, mergeMap_self h.2.2]
  closed x y hx _ := ⟨optSorted_mergeMap hx.1, optSorted_mergeMap hx.2.1, optSorted_mergeMap hx.2.2⟩

/-- for readme and viz the rendered file stays with the receiver, so the left law needs it unset -/
theorem C02_readme_laws : AssignLaws Readme.assign1 {} (fun r => r.renderedFile = none) where
  left x h := by cases x; simp at h; simp [Readme.assign1, setStr_left, setOpt_left, h]
  right x := by simp [Readme.assign1, setStr, setOpt]
  assoc x y z _ _ _ := by simp [Readme.assign1, setStr_assoc, setOpt_assoc]
  idem x _ := by simp [Readme.assign1, setStr_self, setOpt_self]
  closed _ _ h _ := h

theorem C02_viz_laws : AssignLaws Viz.assign1 {} (fun r => r.renderedFile = none) where
  left x h := by cases x; simp at h; simp [Viz.assign1, setStr_left, setOpt_left, h]
  right x := by simp [Viz.assign1, setStr, setOpt]
  assoc x y z _ _ _ := by simp [Viz.assign1, setStr_assoc, setOpt_assoc]
  idem x _ := by simp [Viz.assign1, setStr_self, setOpt_self]
  closed _ _ h _ := h

/-- **C02 (twice)**: assigning the same component a second time changes nothing more. -/
theorem C02_assign_twice {α : Type} {op : α → α → α} {e : α} {ok : α → Prop} (h : AssignLaws op e ok) (x a : α) (hx : ok x) (ha : ok a) :
    assignAll op x [some a, some a] = assignAll op x [some a] := by
  simp only [assignAll]
  rw [h.assoc x a a hx ha ha, h.idem a ha]

/-! ### Datasets -/

/-- all present components, receiver's first -/
def comps {δ α : Type} (comp : δ → Option α) (d : δ) (l : List (Option δ)) : List α := (vals comp d l).filterMap id

/-- merge a list of components left to right; nil when there is none -/
def mergeAll {α : Type} (assign : α → List (Option α) → α) : List α → Option α
  | [] => none
  | c :: cs => some (assign c (cs.map some))

theorem assignComp_mergeAll {α : Type} {op : α → α → α} (a b : Option α) (cs : List α) :
    mergeAll (assignAll op) ((assignComp (assignAll op) a b).toList ++ cs) = mergeAll (assignAll op) (a.toList ++ b.toList ++ cs) := by
  cases a <;> cases b <;> simp [assignComp, mergeAll, assignAll]

theorem assignAll_comp {δ α : Type} (g : δ → δ → δ) (op : α → α → α) (comp : δ → Option α)
    (h : ∀ x y, comp (g x y) = assignComp (assignAll op) (comp x) (comp y)) (d : δ) (l : List (Option δ)) :
    comp (assignAll g d l) = mergeAll (assignAll op) (comps comp d l) := by
  have hv : ∀ (d : δ) l, comps comp d l = (comp d).toList ++ ((l.filterMap id).map comp).filterMap id := by
    intro d l; simp only [comps, vals, List.filterMap_cons]; cases comp d <;> simp
  induction l generalizing d with
  | nil => rw [hv]; cases hc : comp d <;> simp [assignAll, hc, mergeAll]
  | cons o l ih =>
    cases o with
    | none => rw [assignAll, ih]; simp [hv]
    | some y =>
      rw [assignAll, ih, hv, h, assignComp_mergeAll, hv]
      congr 1
      cases hc : comp y <;> simp [hc]

theorem commit_once (a b : Option Commit) :
    ((assignComp Commit.assign a b).map fun c => c.assign [b]) = assignComp (assignAll Commit.assign1) a b := by
  have laws := C02_commit_laws
  cases a <;> cases b <;> simp [assignComp, Commit.assign, assignAll]
  · exact laws.idem _ trivial
  · rw [laws.assoc _ _ _ trivial trivial trivial, laws.idem _ trivial]

/-- **C02 (dataset)**: plain fields take the last set value, the ID the first set value, and each
component is the merge, in order, of all the components that are present. -/
theorem C02_dataset (d : Dataset) (l : List (Option Dataset)) :
    (d.assign l).body = lastNE .null (vals Dataset.body d l) ∧
    (d.assign l).bodyBytes = lastNE none (vals Dataset.bodyBytes d l) ∧
    (d.assign l).bodyFile = lastNE none (vals Dataset.bodyFile d l) ∧
    (d.assign l).bodyPath = lastNE [] (vals Dataset.bodyPath d l) ∧
    (d.assign l).id = firstNE [] (vals Dataset.id d l) ∧
    (d.assign l).name = lastNE [] (vals Dataset.name d l) ∧
    (d.assign l).path = lastNE [] (vals Dataset.path d l) ∧
    (d.assign l).peername = lastNE [] (vals Dataset.peername d l) ∧
    (d.assign l).previousPath = lastNE [] (vals Dataset.previousPath d l) ∧
    (d.assign l).profileID = lastNE [] (vals Dataset.profileID d l) ∧
    (d.assign l).numVersions = d.numVersions ∧ (d.assign l).qri = d.qri ∧
    (d.assign l).commit = mergeAll Commit.assign (comps Dataset.commit d l) ∧
    (d.assign l).meta_ = mergeAll Meta.assign (comps Dataset.meta_ d l) ∧
    (d.assign l).structure_ = mergeAll Structure.assign (comps Dataset.structure_ d l) ∧
    (d.assign l).stats = mergeAll Stats.assign (comps Dataset.stats d l) ∧
    (d.assign l).transform = mergeAll Transform.assign (comps Dataset.transform d l) ∧
    (d.assign l).readme = mergeAll Readme.assign (comps Dataset.readme d l) ∧
    (d.assign l).viz = mergeAll Viz.assign (comps Dataset.viz d l) := by
  refine ⟨?_, ?_, ?_, ?_, ?_, ?_, ?_, ?_, ?_, ?_, assignAll_const Dataset.assign1 Dataset.numVersions (fun _ _ => rfl) d l,
    assignAll_const Dataset.assign1 Dataset.qri (fun _ _ => rfl) d l,
    assignAll_comp _ _ _ (fun x y => commit_once _ _) d l,
    assignAll_comp _ _ _ (fun x y => rfl) d l, assignAll_comp _ _ _ (fun x y => rfl) d l, assignAll_comp _ _ _ (fun x y => rfl) d l,
    assignAll_comp _ _ _ (fun x y => rfl) d l, assignAll_comp _ _ _ (fun x y => rfl) d l, assignAll_comp _ _ _ (fun x y => rfl) d l⟩
  case refine_5 =>
    refine assignAll_firstNE _ _ _ (fun x y => ?_) d l
    simp only [Dataset.assign1]
    by_cases h : x.id = [] <;> by_cases h' : y.id = [] <;> simp [h, h']
  all_goals
    refine assignAll_lastNE _ _ _ (fun x y => ?_) d l
    simp only [Dataset.assign1, setStr_eq, setOpt_eq, setVal_eq]

theorem lastNE_present {α β : Type} [DecidableEq β] (f : α → β) (e : β) (os : List (Option α)) :
    lastNE e (os.map fun o => (o.map f).getD e) = lastNE e ((os.filterMap id).map f) := by
  unfold lastNE
  congr 2
  induction os with
  | nil => rfl
  | cons o os ih =>
    cases o with
    | none => rw [List.map_cons, List.filter_cons, if_neg (by simp), ih]; simp
    | some x => simp only [List.map_cons, List.filterMap_cons, id, List.filter_cons, ih]; rfl

/-- **C02 (dataset, component fields)**: a field of a component of the merged dataset is the last
set one over all datasets, those without the component contributing nothing.  It applies to the
seven components through `C02_dataset` and to each field through the component theorems. -/
theorem C02_dataset_component_field {α β : Type} [DecidableEq β] (comp : Dataset → Option α) (assign : α → List (Option α) → α)
    (f : α → β) (e : β) (d : Dataset) (l : List (Option Dataset))
    (hc : comp (d.assign l) = mergeAll assign (comps comp d l))
    (hf : ∀ (x : α) (l : List (Option α)), f (assign x l) = lastNE e (vals f x l)) :
    ((comp (d.assign l)).map f).getD e = lastNE e (cvals comp f e d l) := by
  rw [hc]
  have h1 : cvals comp f e d l = (vals comp d l).map fun o => (o.map f).getD e := by simp [cvals, vals]
  rw [h1, lastNE_present]
  have : (vals comp d l).filterMap id = comps comp d l := rfl
  rw [this]
  cases hcs : comps comp d l with
  | nil => simp [mergeAll, lastNE]
  | cons c cs =>
    simp only [mergeAll, Option.map_some, Option.getD_some]
    rw [hf]
    congr 1
    simp [vals, List.filterMap_map]

/-- e.g. the commit title and the structure schema -/
theorem C02_dataset_title_schema (d : Dataset) (l : List (Option Dataset)) :
    ((d.assign l).commit.map Commit.title).getD [] = lastNE [] (cvals Dataset.commit Commit.title [] d l) ∧
    ((d.assign l).structure_.map Structure.schema).getD none = lastNE none (cvals Dataset.structure_ Structure.schema none d l) := by
  obtain ⟨-, -, -, -, -, -, -, -, -, -, -, -, hc, -, hs, -⟩ := C02_dataset d l
  exact ⟨C02_dataset_component_field _ _ _ _ d l hc (fun x l => (C02_commit x l).2.2.2.2.2.2.1),
    C02_dataset_component_field _ _ _ _ d l hs (fun x l => (C02_structure x l).2.2.2.2.2.2.2.2.2.2.2.1)⟩

/-! ### Examples -/

def exA : Commit := { title := b!"first", message := b!"m", timestamp := { year := 2001 } }
def exB : Commit := { title := b!"second", author := some { id := b!"bo" } }

example : (exA.assign [none, some exB, some { runID := b!"r" }]) =
    { title := b!"second", message := b!"m", timestamp := { year := 2001 }, author := some { id := b!"bo" }, runID := b!"r" } := by decide +kernel
example : (Transform.assign { config := some [(b!"a", .int 1), (b!"b", .int 2)] } [some { config := some [(b!"b", .int 3)] }]).config =
    some [(b!"a", .int 1), (b!"b", .int 3)] := by decide +kernel
example : (Dataset.assign { name := b!"n" } [some { id := b!"1", commit := some exA }, some { id := b!"2", name := b!"x", commit := some exB }]) =
    { id := b!"1", name := b!"x", commit := some { exA with title := b!"second", author := some { id := b!"bo" } } } := by decide +kernel
example : (exA.assign [some exB]).title = b!"second" := by
  rw [(C02_commit exA [some exB]).2.2.2.2.2.2.1]; decide +kernel
example : lastNE 0 [3, 0, 5, 0] = 5 ∧ firstNE 0 [0, 3, 5] = 3 := by decide

end Verif.Doc
