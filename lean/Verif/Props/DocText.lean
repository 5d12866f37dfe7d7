import Verif.Lemmas.DocTextDepth
/- C74: documents as JSON text -/
set_option autoImplicit false
namespace Verif.DocText
open Doc JsonStd
open JsonG (Tree Spells WS)
open Ndjson (Kept KeptL KeptF)
open Hash (present)

/-! ### What is read -/

/-- A text is read exactly when it is a JSON value, with any whitespace around, nested at most 10000 levels, that fits the type. -/
theorem C74_read_iff {α : Type} (f : Tree → D α) (s : Bytes) (x : α) :
    read f s = .ok x ↔ ∃ T w t w', s = w ++ (t ++ w') ∧ WS w ∧ WS w' ∧ Spells T t ∧ T.depth ≤ maxDepth ∧ f T = .ok x := by
  unfold read
  constructor
  · intro h
    split at h
    · cases h
    · rename_i T e
      obtain ⟨w, t, w', h1, h2, h3, h4, h5⟩ := (tree_iff s T).1 e
      exact ⟨T, w, t, w', h1, h2, h3, h4, h5, h⟩
  · rintro ⟨T, w, t, w', h1, h2, h3, h4, h5, h⟩
    rw [(tree_iff s T).2 ⟨w, t, w', h1, h2, h3, h4, h5⟩]
    exact h

/-- Two texts of the same JSON value read the same, whatever their whitespace. -/
theorem C74_same_value {α : Type} (f : Tree → D α) (T : Tree) (hd : T.depth ≤ maxDepth) (t t' w1 w1' w2 w2' : Bytes) (h : Spells T t) (h' : Spells T t')
    (hw1 : WS w1) (hw1' : WS w1') (hw2 : WS w2) (hw2' : WS w2') : read f (w1 ++ (t ++ w1')) = read f (w2 ++ (t' ++ w2')) := by
  unfold read
  rw [(tree_iff _ T).2 ⟨w1, t, w1', rfl, hw1, hw1', h, hd⟩, (tree_iff _ T).2 ⟨w2, t', w2', rfl, hw2, hw2', h', hd⟩]

/-! ### Round trips -/

theorem rt {α : Type} (F : FloatCodec) (f : Tree → D α) (v : Val) (x : α) (h : Fine F v) (hd : depth v ≤ maxDepth) (hf : f (treeOf F v) = .ok x) :
    ∃ t, write F v = some t ∧ ∀ w w', WS w → WS w' → read f (w ++ (t ++ w')) = .ok x := by
  refine ⟨enc F v, by rw [write, if_pos h.2], fun w w' hw hw' => ?_⟩
  rw [read, tree_enc F v w w' h.1 hd hw hw']
  exact hf

/-- A dataset of valid UTF-8 whose values survive JSON, nested at most 9996 levels, comes back from its text as `kept` says. -/
theorem C74_dataset_round_trip (F : FloatCodec) (d : Dataset) (h : DatasetText F d) (hd : Levels d (maxDepth - 4)) :
    ∃ t, writeDataset F d = some t ∧ ∀ w w', WS w → WS w' → read (dataset F) (w ++ (t ++ w')) = .ok d.kept := by
  obtain ⟨v, h1, _, h3, h4⟩ := dataset_val F d h
  have hn : maxDepth - 4 + 4 = maxDepth := by decide
  have hv := dl_dataset hd h1
  rw [hn] at hv
  obtain ⟨t, ht, hr⟩ := rt F (dataset F) v d.kept h3 hv h4
  exact ⟨t, by rw [writeDataset, h1]; exact ht, hr⟩

theorem C74_commit_round_trip (F : FloatCodec) (c : Commit) (h : CommitText c) :
    ∃ t, writeCommit F c = some t ∧ ∀ w w', WS w → WS w' → read commit (w ++ (t ++ w')) = .ok c.kept := by
  obtain ⟨v, h1, _, h3, h4⟩ := commit_val F c h
  obtain ⟨t, ht, hr⟩ := rt F commit v c.kept h3 (Nat.le_trans (dl_commit (n := 0) h1) (by decide)) h4
  exact ⟨t, by rw [writeCommit, h1]; exact ht, hr⟩

theorem C74_structure_round_trip (F : FloatCodec) (s : Structure) (h : StructureText F s) (n : Nat) (hn : n + 2 ≤ maxDepth)
    (h1 : ∀ x ∈ s.formatConfig.getD [], depth x.2 ≤ n) (h2 : ∀ x ∈ s.schema.getD [], depth x.2 ≤ n) :
    ∃ t, write F (structureVal s) = some t ∧ ∀ w w', WS w → WS w' → read (structure_ F) (w ++ (t ++ w')) = .ok s.kept :=
  rt F (structure_ F) _ s.kept (structure_val F s h).2.1 (Nat.le_trans (dl_structure s h1 h2) hn) (structure_val F s h).2.2

theorem C74_stats_round_trip (F : FloatCodec) (s : Stats) (h : StatsText F s) (hd : depth s.stats + 1 ≤ maxDepth) :
    ∃ t, write F (statsVal s) = some t ∧ ∀ w w', WS w → WS w' → read (stats F) (w ++ (t ++ w')) = .ok s.kept :=
  rt F (stats F) _ s.kept (stats_val F s h).2.1 (Nat.le_trans (dl_stats (n := depth s.stats) s (Nat.le_refl _)) hd) (stats_val F s h).2.2

theorem C74_transform_round_trip (F : FloatCodec) (q : Transform) (h : TransformText F q) (n : Nat) (hn : n + 3 ≤ maxDepth)
    (h1 : ∀ x ∈ q.config.getD [], depth x.2 ≤ n) (h2 : ∀ x ∈ q.steps.getD [], ∀ s, x = some s → depth s.script ≤ n) :
    ∃ t, write F (transformVal q) = some t ∧ ∀ w w', WS w → WS w' → read (transform F) (w ++ (t ++ w')) = .ok q.kept :=
  rt F (transform F) _ q.kept (transform_val F q h).2.1 (Nat.le_trans (dl_transform q h1 h2) hn) (transform_val F q h).2.2

theorem C74_meta_round_trip (F : FloatCodec) (m : Meta) (h : MetaText F m) (n : Nat) (hn : n + 3 ≤ maxDepth)
    (h1 : ∀ x ∈ m.arbitrary.getD [], depth x.2 ≤ n) :
    ∃ t, write F (metaVal m) = some t ∧ ∀ w w', WS w → WS w' → read (meta_ F) (w ++ (t ++ w')) = .ok m.kept :=
  rt F (meta_ F) _ m.kept (meta_val F m h).2.1 (Nat.le_trans (dl_meta m h1) hn) (meta_val F m h).2.2

theorem C74_readme_round_trip (F : FloatCodec) (r : Readme) (h : ReadmeText r) :
    ∃ t, write F r.enc = some t ∧ ∀ w w', WS w → WS w' → read readme (w ++ (t ++ w')) = .ok r.kept :=
  rt F readme _ r.kept (readme_val F r h).2.1 (Nat.le_trans (dl_readme 0 r) (by decide)) (readme_val F r h).2.2

theorem C74_viz_round_trip (F : FloatCodec) (r : Viz) (h : VizText r) :
    ∃ t, write F r.enc = some t ∧ ∀ w w', WS w → WS w' → read viz (w ++ (t ++ w')) = .ok r.kept :=
  rt F viz _ r.kept (viz_val F r h).2.1 (Nat.le_trans (dl_viz 0 r) (by decide)) (viz_val F r h).2.2

/-- Two such datasets with the same text differ only in what text leaves out. -/
theorem C74_text_determines (F : FloatCodec) (d d' : Dataset) (h : DatasetText F d) (hd : Levels d (maxDepth - 4)) (h' : DatasetText F d')
    (hd' : Levels d' (maxDepth - 4)) (e : writeDataset F d = writeDataset F d') : d.kept = d'.kept := by
  obtain ⟨t, h1, h2⟩ := C74_dataset_round_trip F d h hd
  obtain ⟨t', h1', h2'⟩ := C74_dataset_round_trip F d' h' hd'
  rw [h1, h1'] at e
  cases e
  have a := h2 [] [] JsonStd.ws_nil JsonStd.ws_nil
  rw [h2' [] [] JsonStd.ws_nil JsonStd.ws_nil] at a
  exact (Except.ok.inj a).symm

/-! ### What has a text -/

/-- A dataset has a text unless its commit is dated outside years 0 to 9999 or a number in it is infinite or NaN.  Parts that are
written as references are not looked at. -/
theorem C74_has_text (F : FloatCodec) (d : Dataset)
    (hm : ∀ m, d.meta_ = some m → KeysSorted (m.arbitrary.getD []) ∧ ∀ x ∈ m.arbitrary.getD [], x.1 ∉ metaNames) :
    (writeDataset F d).isSome = true ↔ (d.path ≠ [] ∧ d.isEmpty = true) ∨
      (∀ c, d.commit = some c → (c.path ≠ [] ∧ c.isEmpty = true) ∨ (0 ≤ c.timestamp.year ∧ c.timestamp.year ≤ 9999)) ∧
      jsonOK d.body = true ∧
      (∀ m, d.meta_ = some m → (m.path ≠ [] ∧ m.isEmpty = true) ∨ ∀ x ∈ m.arbitrary.getD [], jsonOK x.2 = true) ∧
      (∀ s, d.structure_ = some s → (s.path ≠ [] ∧ s.encoding = [] ∧ s.schema = none) ∨
        (∀ x ∈ s.formatConfig.getD [], jsonOK x.2 = true) ∧ ∀ x ∈ s.schema.getD [], jsonOK x.2 = true) ∧
      (∀ s, d.stats = some s → (s.path ≠ [] ∧ s.isEmpty = true) ∨ jsonOK s.stats = true) ∧
      (∀ q, d.transform = some q → (q.path ≠ [] ∧ q.isEmpty = true) ∨
        (∀ x ∈ q.config.getD [], jsonOK x.2 = true) ∧ ∀ x ∈ q.steps.getD [], ∀ s, x = some s → jsonOK s.script = true) := by
  unfold writeDataset datasetVal
  by_cases href : d.path ≠ [] ∧ d.isEmpty = true
  · rw [if_pos href]
    simp [href, write, jsonOK]
  · rw [if_neg href]
    have key : ∀ cm, FineO J cm → ((write F (.obj (present (datasetFields d cm)))).isSome = true ↔
        J d.body ∧ (∀ m, d.meta_ = some m → J (metaVal m)) ∧ (∀ s, d.structure_ = some s → J (structureVal s)) ∧
        (∀ s, d.stats = some s → J (statsVal s)) ∧ (∀ q, d.transform = some q → J (transformVal q))) := by
      intro cm hcm
      have : (write F (.obj (present (datasetFields d cm)))).isSome = true ↔ J (.obj (present (datasetFields d cm))) := by
        unfold write J
        split <;> simp [*]
      rw [this, j_present]
      simp only [datasetFields, allF_cons, allF_nil, fj_omitStr, fj_omitInt, fj_omitVal, fj_omitBytes, fj_some, j_str, fj_map, j_readme, j_viz,
        hcm, implies_true, true_and, and_true]
    have hmeta : (∀ m, d.meta_ = some m → J (metaVal m)) ↔
        ∀ m, d.meta_ = some m → (m.path ≠ [] ∧ m.isEmpty = true) ∨ ∀ x ∈ m.arbitrary.getD [], jsonOK x.2 = true :=
      ⟨fun h m e => (j_meta m (hm m e).1 (hm m e).2).1 (h m e), fun h m e => (j_meta m (hm m e).1 (hm m e).2).2 (h m e)⟩
    have hst : (∀ s, d.structure_ = some s → J (structureVal s)) ↔ (∀ s, d.structure_ = some s → (s.path ≠ [] ∧ s.encoding = [] ∧ s.schema = none) ∨
        (∀ x ∈ s.formatConfig.getD [], jsonOK x.2 = true) ∧ ∀ x ∈ s.schema.getD [], jsonOK x.2 = true) :=
      ⟨fun h s e => (j_structure s).1 (h s e), fun h s e => (j_structure s).2 (h s e)⟩
    have hss : (∀ s, d.stats = some s → J (statsVal s)) ↔ (∀ s, d.stats = some s → (s.path ≠ [] ∧ s.isEmpty = true) ∨ jsonOK s.stats = true) :=
      ⟨fun h s e => (j_stats s).1 (h s e), fun h s e => (j_stats s).2 (h s e)⟩
    have htr : (∀ q, d.transform = some q → J (transformVal q)) ↔ (∀ q, d.transform = some q → (q.path ≠ [] ∧ q.isEmpty = true) ∨
        (∀ x ∈ q.config.getD [], jsonOK x.2 = true) ∧ ∀ x ∈ q.steps.getD [], ∀ s, x = some s → jsonOK s.script = true) :=
      ⟨fun h s e => (j_transform s).1 (h s e), fun h s e => (j_transform s).2 (h s e)⟩
    rw [← hmeta, ← hst, ← hss, ← htr]
    cases hc : d.commit with
    | none =>
      have : encComp commitVal (none : Option Commit) = some none := rfl
      rw [this]
      simp only [Option.map_some, Option.bind_some]
      rw [key none fo_none]
      simp only [reduceCtorEq, false_implies, implies_true, true_and]
      exact ⟨Or.inr, fun h => h.resolve_left href⟩
    | some c =>
      have hcs := commitVal_isSome c
      cases hv : commitVal c with
      | none =>
        rw [hv] at hcs
        have : encComp commitVal (some c) = none := by rw [encComp, hv]; rfl
        rw [this]
        simp only [Option.map_none, Option.bind_none, Option.isSome_none, Bool.false_eq_true, false_iff]
        intro h
        exact absurd (hcs.2 ((h.resolve_left href).1 c rfl)) (by simp)
      | some v =>
        rw [hv] at hcs
        have : encComp commitVal (some c) = some (some v) := by rw [encComp, hv]; rfl
        rw [this]
        simp only [Option.map_some, Option.bind_some]
        rw [key (some v) (fo_some (j_commit hv))]
        constructor
        · intro h
          exact Or.inr ⟨by rintro _ ⟨⟩; exact hcs.1 rfl, h⟩
        · intro h
          exact (h.resolve_left href).2

/-! ### What does not show -/

/-- Secrets and file handles do not show in the text of a dataset. -/
theorem C74_secrets_do_not_show (F : FloatCodec) (d : Dataset) (q : Transform) (s₁ s₂ : List (Bytes × Bytes)) :
    writeDataset F { d with transform := some { q with secrets := some s₁ } } =
      writeDataset F { d with transform := some { q with secrets := some s₂ } } := by
  unfold writeDataset datasetVal
  have : ∀ s, ({ d with transform := some { q with secrets := some s } : Dataset }.isEmpty) = false := by
    intro s; simp [Dataset.isEmpty]
  simp only [this]
  have e : ∀ s, transformVal { q with secrets := some s } = .obj (present (transformFields q)) := by
    intro s
    unfold transformVal
    rw [if_neg (by simp [Transform.isEmpty])]
    rfl
  simp only [datasetFields, Option.map_some, e]

/-! ### Members -/

def datasetNames : List Bytes := [b!"body", b!"bodyBytes", b!"bodyPath", b!"commit", b!"id", b!"meta", b!"name", b!"path", b!"peername",
  b!"previousPath", b!"profileID", b!"readme", b!"numVersions", b!"qri", b!"structure", b!"stats", b!"transform", b!"viz"]
def commitNames : List Bytes := [b!"author", b!"message", b!"path", b!"qri", b!"signature", b!"timestamp", b!"title", b!"runID"]
def structureNames : List Bytes := [b!"checksum", b!"compression", b!"depth", b!"encoding", b!"errCount", b!"entries", b!"format", b!"formatConfig",
  b!"length", b!"path", b!"qri", b!"schema", b!"strict"]
def statsNames : List Bytes := [b!"path", b!"qri", b!"stats"]
def transformNames : List Bytes := [b!"config", b!"path", b!"qri", b!"resources", b!"scriptPath", b!"text", b!"secrets", b!"steps", b!"syntax",
  b!"syntaxVersion", b!"syntaxes"]
def readmeNames : List Bytes := [b!"format", b!"path", b!"qri", b!"scriptPath", b!"text", b!"renderedPath"]

/-- the reader looks at the members with these names only, one name at a time -/
def Sees {α : Type} (names : List Bytes) (f : Tree → D α) : Prop :=
  ∀ m m', (∀ n ∈ names, getAll m n = getAll m' n) → f (.obj m) = f (.obj m')

theorem sees_dataset (F : FloatCodec) : Sees datasetNames (dataset F) := by
  intro m m' h
  show datasetObj F m = datasetObj F m'
  unfold datasetObj fld
  rw [h b!"body" (by decide +kernel), h b!"bodyBytes" (by decide +kernel), h b!"bodyPath" (by decide +kernel), h b!"commit" (by decide +kernel), h b!"id" (by decide +kernel),
    h b!"meta" (by decide +kernel), h b!"name" (by decide +kernel), h b!"path" (by decide +kernel), h b!"peername" (by decide +kernel), h b!"previousPath" (by decide +kernel),
    h b!"profileID" (by decide +kernel), h b!"readme" (by decide +kernel), h b!"numVersions" (by decide +kernel), h b!"qri" (by decide +kernel), h b!"structure" (by decide +kernel),
    h b!"stats" (by decide +kernel), h b!"transform" (by decide +kernel), h b!"viz" (by decide +kernel)]
theorem sees_commit : Sees commitNames commit := by
  intro m m' h
  show commitObj m = commitObj m'
  unfold commitObj fld
  rw [h b!"author" (by decide +kernel), h b!"message" (by decide +kernel), h b!"path" (by decide +kernel), h b!"qri" (by decide +kernel), h b!"signature" (by decide +kernel),
    h b!"timestamp" (by decide +kernel), h b!"title" (by decide +kernel), h b!"runID" (by decide +kernel)]
theorem sees_structure (F : FloatCodec) : Sees structureNames (structure_ F) := by
  intro m m' h
  show structureObj F m = structureObj F m'
  unfold structureObj fld
  rw [h b!"checksum" (by decide +kernel), h b!"compression" (by decide +kernel), h b!"depth" (by decide +kernel), h b!"encoding" (by decide +kernel), h b!"errCount" (by decide +kernel),
    h b!"entries" (by decide +kernel), h b!"format" (by decide +kernel), h b!"formatConfig" (by decide +kernel), h b!"length" (by decide +kernel), h b!"path" (by decide +kernel),
    h b!"qri" (by decide +kernel), h b!"schema" (by decide +kernel), h b!"strict" (by decide +kernel)]
theorem sees_stats (F : FloatCodec) : Sees statsNames (stats F) := by
  intro m m' h
  show statsObj F m = statsObj F m'
  unfold statsObj fld
  rw [h b!"path" (by decide +kernel), h b!"qri" (by decide +kernel), h b!"stats" (by decide +kernel)]
theorem sees_transform (F : FloatCodec) : Sees transformNames (transform F) := by
  intro m m' h
  show transformObj F m = transformObj F m'
  unfold transformObj fld
  rw [h b!"config" (by decide +kernel), h b!"path" (by decide +kernel), h b!"qri" (by decide +kernel), h b!"resources" (by decide +kernel), h b!"scriptPath" (by decide +kernel),
    h b!"text" (by decide +kernel), h b!"secrets" (by decide +kernel), h b!"steps" (by decide +kernel), h b!"syntax" (by decide +kernel), h b!"syntaxVersion" (by decide +kernel),
    h b!"syntaxes" (by decide +kernel)]
theorem sees_readme : Sees readmeNames readme := by
  intro m m' h
  show readmeObj m = readmeObj m'
  unfold readmeObj fld
  rw [h b!"format" (by decide +kernel), h b!"path" (by decide +kernel), h b!"qri" (by decide +kernel), h b!"scriptPath" (by decide +kernel), h b!"text" (by decide +kernel),
    h b!"renderedPath" (by decide +kernel)]
theorem sees_viz : Sees readmeNames viz := by
  intro m m' h
  show vizObj m = vizObj m'
  unfold vizObj fld
  rw [h b!"format" (by decide +kernel), h b!"path" (by decide +kernel), h b!"qri" (by decide +kernel), h b!"scriptPath" (by decide +kernel), h b!"text" (by decide +kernel),
    h b!"renderedPath" (by decide +kernel)]

/-- `f` ignores members with other names -/
def IgnoresUnknown {α : Type} (names : List Bytes) (f : Tree → D α) : Prop :=
  ∀ (a b : List (Bytes × Tree)) (k : Bytes) (T : Tree), (∀ n ∈ names, foldName (unquote k) ≠ foldName n) →
    f (.obj (a ++ (k, T) :: b)) = f (.obj (a ++ b))
/-- spelling a name with other letter cases or escapes changes nothing -/
def IgnoresCase {α : Type} (f : Tree → D α) : Prop :=
  ∀ (a b : List (Bytes × Tree)) (k k' : Bytes) (T : Tree), foldName (unquote k) = foldName (unquote k') →
    f (.obj (a ++ (k, T) :: b)) = f (.obj (a ++ (k', T) :: b))
/-- members whose names differ can change places -/
def IgnoresOrder {α : Type} (f : Tree → D α) : Prop :=
  ∀ (a b : List (Bytes × Tree)) (x y : Bytes × Tree), foldName (unquote x.1) ≠ foldName (unquote y.1) →
    f (.obj (a ++ x :: y :: b)) = f (.obj (a ++ y :: x :: b))

theorem sees_all {α : Type} {names : List Bytes} {f : Tree → D α} (h : Sees names f) : IgnoresUnknown names f ∧ IgnoresCase f ∧ IgnoresOrder f := by
  refine ⟨?_, ?_, ?_⟩
  · intro a b k T hk
    apply h
    intro n hn
    simp [getAll, hk n hn]
  · intro a b k k' T hk
    apply h
    intro n hn
    by_cases e : foldName (unquote k') = foldName n <;> simp [getAll, hk, e]
  · intro a b x y hxy
    apply h
    intro n hn
    simp only [getAll, List.filter_append, List.filter_cons]
    by_cases h1 : foldName (unquote x.1) = foldName n
    · have : foldName (unquote y.1) ≠ foldName n := fun e => hxy (h1.trans e.symm)
      simp [h1, this]
    · simp [h1]

/-- Members with unknown names are ignored, names may be spelled in any letter case, and the order of members does not matter, except
in meta (see `C74_meta_unknown_kept`) and between members of the same name. -/
theorem C74_members (F : FloatCodec) :
    (IgnoresUnknown datasetNames (dataset F) ∧ IgnoresCase (dataset F) ∧ IgnoresOrder (dataset F)) ∧
    (IgnoresUnknown commitNames commit ∧ IgnoresCase commit ∧ IgnoresOrder commit) ∧
    (IgnoresUnknown structureNames (structure_ F) ∧ IgnoresCase (structure_ F) ∧ IgnoresOrder (structure_ F)) ∧
    (IgnoresUnknown statsNames (stats F) ∧ IgnoresCase (stats F) ∧ IgnoresOrder (stats F)) ∧
    (IgnoresUnknown transformNames (transform F) ∧ IgnoresCase (transform F) ∧ IgnoresOrder (transform F)) ∧
    (IgnoresUnknown readmeNames readme ∧ IgnoresCase readme ∧ IgnoresOrder readme) ∧
    (IgnoresUnknown readmeNames viz ∧ IgnoresCase viz ∧ IgnoresOrder viz) :=
  ⟨sees_all (sees_dataset F), sees_all sees_commit, sees_all (sees_structure F), sees_all (sees_stats F), sees_all (sees_transform F),
    sees_all sees_readme, sees_all sees_viz⟩

/-! ### Values of members -/

theorem bind_ok_iff {α β : Type} {x : D α} {f : α → D β} {r : β} : (x >>= f) = .ok r ↔ ∃ a, x = .ok a ∧ f a = .ok r := by
  cases x with
  | error e => simp [bind, Except.bind]
  | ok a => simp [bind, Except.bind]

/-- the values of the members that go to a field: names are compared after decoding, up to letter case -/
def valuesOf (m : List (Bytes × Tree)) (n : Bytes) : List Tree := (m.filter fun x => foldName (unquote x.1) = foldName n).map (·.2)

def strOf : Tree → Option Bytes
  | .str t => some (unquote t)
  | _ => none
def lastStr (l : List Tree) : Bytes := (l.filterMap strOf).getLast?.getD []
def strOrNull : Tree → Bool
  | .null => true
  | .str _ => true
  | _ => false

theorem foldlM_str (l : List Tree) (old s : Bytes) : l.foldlM (fun acc T => intoStr T acc) old = (.ok s : D Bytes) ↔
    l.all strOrNull = true ∧ s = (l.filterMap strOf).getLast?.getD old := by
  induction l generalizing old with
  | nil => simp [pure, Except.pure, eq_comm]
  | cons T l ih =>
    rw [List.foldlM_cons, bind_ok_iff, List.all_cons, List.filterMap_cons]
    have hno : ∀ T, strOrNull T = false → ((∃ a, intoStr T old = .ok a ∧ l.foldlM (fun acc T => intoStr T acc) a = (.ok s : D Bytes)) ↔
        (strOrNull T && l.all strOrNull) = true ∧ s = (match strOf T with
          | none => l.filterMap strOf
          | some b => b :: l.filterMap strOf).getLast?.getD old) := by
      intro T hT
      rw [hT]
      have : ∀ a, intoStr T old ≠ .ok a := by
        intro a e
        cases T <;> first | (cases hT; done) | (cases e; done)
      simp [this]
    cases T with
    | null =>
      have e1 : ∀ a, intoStr .null old = .ok a ↔ a = old := fun a => ⟨fun e => (Except.ok.inj e).symm, fun e => e ▸ rfl⟩
      simp only [e1, exists_eq_left, ih]
      rfl
    | str t =>
      have e1 : ∀ a, intoStr (.str t) old = .ok a ↔ a = unquote t := fun a => ⟨fun e => (Except.ok.inj e).symm, fun e => e ▸ rfl⟩
      simp only [e1, exists_eq_left, ih]
      show _ ↔ _ ∧ s = (unquote t :: l.filterMap strOf).getLast?.getD old
      rw [List.getLast?_cons]
      rfl
    | bool _ => exact hno _ rfl
    | num _ => exact hno _ rfl
    | arr _ => exact hno _ rfl
    | obj _ => exact hno _ rfl

theorem fld_str (m : List (Bytes × Tree)) (n s : Bytes) : fld intoStr m n [] = .ok s ↔ (valuesOf m n).all strOrNull = true ∧ s = lastStr (valuesOf m n) :=
  foldlM_str _ _ _

/-- Text fields of a dataset: every member must be a string or null, the last string counts. -/
theorem C74_dataset_strings (F : FloatCodec) (m : List (Bytes × Tree)) (d : Dataset) (h : dataset F (.obj m) = .ok d) :
    ∀ p ∈ [(b!"bodyPath", d.bodyPath), (b!"id", d.id), (b!"name", d.name), (b!"path", d.path), (b!"peername", d.peername),
      (b!"previousPath", d.previousPath), (b!"profileID", d.profileID), (b!"qri", d.qri)],
      (valuesOf m p.1).all strOrNull = true ∧ p.2 = lastStr (valuesOf m p.1) := by
  have h : datasetObj F m = .ok d := h
  unfold datasetObj at h
  simp only [bind_ok_iff] at h
  obtain ⟨_, _, _, _, bp, hbp, _, _, id, hid, _, _, nm, hnm, pa, hpa, pn, hpn, pp, hpp, pi, hpi, _, _, _, _, q, hq, _, _, _, _, _, _, _, _, he⟩ := h
  cases he
  intro p hp
  simp only [List.mem_cons, List.not_mem_nil, or_false] at hp
  rcases hp with rfl | rfl | rfl | rfl | rfl | rfl | rfl | rfl <;> rw [← fld_str] <;> assumption

/-- Any member that is not of the type of its field makes the whole dataset unreadable. -/
theorem C74_dataset_type_errors (F : FloatCodec) (m : List (Bytes × Tree)) (n : Bytes) (T : Tree)
    (hn : n ∈ [b!"bodyPath", b!"id", b!"name", b!"path", b!"peername", b!"previousPath", b!"profileID", b!"qri"])
    (hT : T ∈ valuesOf m n) (h : strOrNull T = false) (d : Dataset) : dataset F (.obj m) ≠ .ok d := by
  intro e
  have hs := C74_dataset_strings F m d e
  have : (valuesOf m n).all strOrNull = true := by
    simp only [List.mem_cons, List.not_mem_nil, or_false] at hn
    rcases hn with rfl | rfl | rfl | rfl | rfl | rfl | rfl | rfl
    · exact (hs (b!"bodyPath", d.bodyPath) (by simp)).1
    · exact (hs (b!"id", d.id) (by simp)).1
    · exact (hs (b!"name", d.name) (by simp)).1
    · exact (hs (b!"path", d.path) (by simp)).1
    · exact (hs (b!"peername", d.peername) (by simp)).1
    · exact (hs (b!"previousPath", d.previousPath) (by simp)).1
    · exact (hs (b!"profileID", d.profileID) (by simp)).1
    · exact (hs (b!"qri", d.qri) (by simp)).1
  rw [List.all_eq_true] at this
  rw [this T hT] at h
  cases h

theorem foldlM_any (F : FloatCodec) (l : List Tree) (old v : Val) (h : l.foldlM (fun acc T => intoAny F T acc) old = (.ok v : D Val)) :
    (∀ T ∈ l, (plain F T).isSome = true) ∧ ((l = [] ∧ v = old) ∨ ∃ T, l.getLast? = some T ∧ plain F T = some v) := by
  induction l generalizing old with
  | nil => simp [pure, Except.pure] at h; simp [h]
  | cons T l ih =>
    rw [List.foldlM_cons, bind_ok_iff] at h
    obtain ⟨a, ha, h⟩ := h
    have hT : plain F T = some a := by
      unfold intoAny at ha
      split at ha
      · rename_i w e; cases ha; exact e
      · cases ha
    obtain ⟨h1, h2⟩ := ih a h
    refine ⟨fun U hU => ?_, Or.inr ?_⟩
    · rcases List.mem_cons.1 hU with rfl | hU
      · rw [hT]; rfl
      · exact h1 U hU
    · rcases h2 with ⟨rfl, rfl⟩ | ⟨U, hU, hp⟩
      · exact ⟨T, rfl, hT⟩
      · refine ⟨U, ?_, hp⟩
        rw [List.getLast?_cons, hU]; rfl

/-- The body is the last of the body members, null included. -/
theorem C74_dataset_body (F : FloatCodec) (m : List (Bytes × Tree)) (d : Dataset) (h : dataset F (.obj m) = .ok d) :
    (valuesOf m b!"body" = [] ∧ d.body = .null) ∨ ∃ T, (valuesOf m b!"body").getLast? = some T ∧ plain F T = some d.body := by
  have h : datasetObj F m = .ok d := h
  unfold datasetObj at h
  simp only [bind_ok_iff] at h
  obtain ⟨b, hb, _, _, _, _, _, _, _, _, _, _, _, _, _, _, _, _, _, _, _, _, _, _, _, _, _, _, _, _, _, _, _, _, _, _, he⟩ := h
  cases he
  exact (foldlM_any F _ _ _ hb).2

theorem valuesOf_cons (k : Bytes) (T : Tree) (m : List (Bytes × Tree)) (n : Bytes) :
    valuesOf ((k, T) :: m) n = if foldName (unquote k) = foldName n then T :: valuesOf m n else valuesOf m n := by
  unfold valuesOf
  by_cases h : foldName (unquote k) = foldName n <;> simp [h]

/-- A component that comes twice is not merged: the second replaces the first. -/
theorem C74_components_replaced {α : Type} (f : Tree → D α) (zero : α) (T : Tree) (old x : Option α) (h : intoComp f zero T old = .ok x) (old' : Option α) :
    intoComp f zero T old' = .ok x := by
  unfold intoComp at h ⊢
  cases T <;> exact h

/-- A string in place of a document is a reference: only the path is set. -/
theorem C74_reference (F : FloatCodec) (w w' p : Bytes) (hw : WS w) (hw' : WS w') (hp : ValidUtf8 p) :
    read (dataset F) (w ++ (enc F (.str p) ++ w')) = .ok { path := p } ∧ read commit (w ++ (enc F (.str p) ++ w')) = .ok { path := p } ∧
    read (structure_ F) (w ++ (enc F (.str p) ++ w')) = .ok { path := p } ∧ read (transform F) (w ++ (enc F (.str p) ++ w')) = .ok { path := p } ∧
    read (meta_ F) (w ++ (enc F (.str p) ++ w')) = .ok { path := p } ∧ read (stats F) (w ++ (enc F (.str p) ++ w')) = .ok { path := p } ∧
    read readme (w ++ (enc F (.str p) ++ w')) = .ok { path := p } ∧ read viz (w ++ (enc F (.str p) ++ w')) = .ok { path := p } := by
  have h := tree_enc F (.str p) w w' trivial (by simp [depth]) hw hw'
  unfold read
  rw [h]
  simp [treeOf, dataset, commit, structure_, transform, meta_, stats, readme, viz, component, unquote_esc, toValidUtf8_valid hp]

theorem mapGet_foldSet_mem {α : Type} (l : List (Bytes × α)) (acc : List (Bytes × α)) (k : Bytes) (h : k ∉ l.map (·.1)) :
    mapGet (l.foldl (fun a p => mapSet a p.1 p.2) acc) k = mapGet acc k := by
  induction l generalizing acc with
  | nil => rfl
  | cons x l ih =>
    simp only [List.map_cons, List.mem_cons, not_or] at h
    rw [List.foldl_cons, ih _ h.2, mapGet_mapSet_ne _ _ h.1]

theorem plainF_append (F : FloatCodec) (a b : List (Bytes × Tree)) :
    plainF F (a ++ b) = (plainF F a).bind fun x => (plainF F b).map fun y => x ++ y := by
  induction a with
  | nil => cases h : plainF F b <;> simp [plainF, h]
  | cons x a ih =>
    obtain ⟨k, T⟩ := x
    simp only [List.cons_append, plainF, ih]
    cases plain F T <;> cases plainF F a <;> cases plainF F b <;> simp

theorem plainF_keys (F : FloatCodec) (b : List (Bytes × Tree)) : ∀ z, plainF F b = some z → z.map (·.1) = b.map fun x => unquote x.1 := by
  induction b with
  | nil => intro z hz; rw [plainF] at hz; cases hz; rfl
  | cons p b ih =>
    intro z hz
    obtain ⟨k, T⟩ := p
    rw [plainF] at hz
    obtain ⟨v, _, hz⟩ := Option.bind_eq_some_iff.1 hz
    obtain ⟨z', hz', rfl⟩ := Option.map_eq_some_iff.1 hz
    simp [ih z' hz']

theorem arb_get {r : List (Bytes × Val)} {k : Bytes} {v : Val} (h : mapGet r k = some v) : mapGet ((if r = [] then none else some r).getD []) k = some v := by
  split
  · rename_i e
    rw [e] at h
    cases h
  · exact h

/-- Members of a meta whose names are not reserved are kept, under the name as it is spelled, with the last value. -/
theorem C74_meta_unknown_kept (F : FloatCodec) (a b : List (Bytes × Tree)) (k : Bytes) (T : Tree) (m : Meta)
    (hk : unquote k ∉ metaReserved) (hb : ∀ x ∈ b, unquote x.1 ≠ unquote k) (h : meta_ F (.obj (a ++ (k, T) :: b)) = .ok m) :
    ∃ v, plain F T = some v ∧ mapGet (m.arbitrary.getD []) (unquote k) = some v := by
  have h : metaObj F (a ++ (k, T) :: b) = .ok m := h
  unfold metaObj at h
  simp only [bind_ok_iff] at h
  obtain ⟨_, _, _, _, _, _, _, _, _, _, _, _, _, _, _, _, _, _, _, _, _, _, _, _, _, _, _, _, _, _, _, _, _, _, all, hall, he⟩ := h
  have harb : m.arbitrary = if metaReserved.foldl mapDel (all.getD []) = [] then none else some (metaReserved.foldl mapDel (all.getD [])) := by
    rw [← Except.ok.inj he]
  clear he
  rw [harb]
  clear harb
  simp only [intoAnyMap] at hall
  split at hall
  · rename_i kvs hkvs
    cases hall
    rw [plainF_append] at hkvs
    obtain ⟨x, hx, hy⟩ := Option.bind_eq_some_iff.1 hkvs
    obtain ⟨y, hy1, rfl⟩ := Option.map_eq_some_iff.1 hy
    rw [plainF] at hy1
    obtain ⟨v, hv, hy2⟩ := Option.bind_eq_some_iff.1 hy1
    obtain ⟨z, hz, rfl⟩ := Option.map_eq_some_iff.1 hy2
    refine ⟨v, hv, ?_⟩
    have hkeys := plainF_keys F b z hz
    have hs : KeysSorted ((x ++ (unquote k, v) :: z).foldl (fun a p => mapSet a p.1 p.2) ((none : Option (List (Bytes × Val))).getD [])) :=
      keysSorted_foldSet _ (by simp [KeysSorted])
    have hg : mapGet (metaReserved.foldl mapDel ((x ++ (unquote k, v) :: z).foldl (fun a p => mapSet a p.1 p.2) ((none : Option (List (Bytes × Val))).getD []))) (unquote k) = some v := by
      rw [mapGet_foldDel _ hs, if_neg hk, List.foldl_append, List.foldl_cons, mapGet_foldSet_mem, mapGet_mapSet_self]
      rw [hkeys]
      intro hm
      obtain ⟨p, hp, e⟩ := List.mem_map.1 hm
      exact hb p hp e
    rw [Option.getD_some]
    exact arb_get hg
  · cases hall

/-! ### Null, maps and sources -/

/-- Null in place of a document is the empty document; a null component is no component. -/
theorem C74_null (F : FloatCodec) (w w' : Bytes) (hw : WS w) (hw' : WS w') :
    read (dataset F) (w ++ (b!"null" ++ w')) = .ok {} ∧ read commit (w ++ (b!"null" ++ w')) = .ok {} ∧
    read (structure_ F) (w ++ (b!"null" ++ w')) = .ok {} ∧ read (transform F) (w ++ (b!"null" ++ w')) = .ok {} ∧
    read (meta_ F) (w ++ (b!"null" ++ w')) = .ok {} ∧ read (stats F) (w ++ (b!"null" ++ w')) = .ok {} ∧
    read readme (w ++ (b!"null" ++ w')) = .ok {} ∧ read viz (w ++ (b!"null" ++ w')) = .ok {} := by
  have h := tree_enc F .null w w' trivial (by simp [depth]) hw hw'
  have e : enc F .null = b!"null" := rfl
  rw [e] at h
  unfold read
  rw [h]
  simp [treeOf, dataset, commit, structure_, transform, meta_, stats, readme, viz, component]

/-- the last member with a name -/
def lastMember (m : List (Bytes × Tree)) (k : Bytes) : Option Tree := (m.reverse.find? fun x => unquote x.1 = k).map (·.2)

/-- the members of the objects after the last null -/
def sinceNull (l : List Tree) (acc : List (Bytes × Tree)) : List (Bytes × Tree) :=
  l.foldl (fun acc T => match T with | .null => [] | .obj m => acc ++ m | _ => acc) acc

theorem lastMember_append (a b : List (Bytes × Tree)) (k : Bytes) : lastMember (a ++ b) k = (lastMember b k).or (lastMember a k) := by
  simp only [lastMember, List.reverse_append, List.find?_append]
  cases b.reverse.find? fun x => decide (unquote x.1 = k) <;> simp

theorem foldSet_last {α : Type} (f : Tree → Option α) (m : List (Bytes × Tree)) (k : Bytes) : ∀ (kvs : List (Bytes × α)) (old : List (Bytes × α)),
    (m.mapM fun x => (f x.2).map fun a => (unquote x.1, a)) = some kvs →
    mapGet (kvs.foldl (fun a p => mapSet a p.1 p.2) old) k = match lastMember m k with | some T => f T | none => mapGet old k := by
  induction m with
  | nil =>
    intro kvs old h
    simp only [List.mapM_nil, Option.pure_def, Option.some.injEq] at h
    subst h
    rfl
  | cons x m ih =>
    intro kvs old h
    obtain ⟨n, T⟩ := x
    simp only [List.mapM_cons, Option.bind_eq_bind, Option.bind_eq_some_iff, Option.map_eq_some_iff, Option.pure_def, Option.some.injEq] at h
    obtain ⟨_, ⟨v, hv, rfl⟩, kvs, hm, rfl⟩ := h
    rw [List.foldl_cons, ih kvs _ hm, show ((n, T) :: m) = [(n, T)] ++ m from rfl, lastMember_append]
    cases lastMember m k with
    | some U => rfl
    | none =>
      by_cases hn : unquote n = k
      · subst hn
        simp [lastMember, mapGet_mapSet_self, hv]
      · simp [lastMember, hn, mapGet_mapSet_ne _ _ (Ne.symm hn)]

theorem plainF_mapM (F : FloatCodec) (m : List (Bytes × Tree)) : plainF F m = m.mapM fun x => (plain F x.2).map fun a => (unquote x.1, a) := by
  induction m with
  | nil => simp [plainF]
  | cons x m ih =>
    obtain ⟨k, T⟩ := x
    rw [plainF, ih, List.mapM_cons]
    cases plain F T <;> cases (m.mapM fun x => (plain F x.2).map fun a => (unquote x.1, a)) <;> rfl

theorem foldlM_anyMap (F : FloatCodec) (k : Bytes) (l : List Tree) : ∀ (acc : List (Bytes × Tree)) (old o : Option (List (Bytes × Val))),
    mapGet (old.getD []) k = (lastMember acc k).bind (plain F) → l.foldlM (fun a T => intoAnyMap F T a) old = (.ok o : D _) →
    mapGet (o.getD []) k = (lastMember (sinceNull l acc) k).bind (plain F) := by
  induction l with
  | nil => intro acc old o h e; cases e; exact h
  | cons T l ih =>
    intro acc old o h e
    rw [List.foldlM_cons, bind_ok_iff] at e
    obtain ⟨a, ha, e⟩ := e
    cases T with
    | null =>
      cases ha
      exact ih [] none o rfl e
    | obj m =>
      simp only [intoAnyMap] at ha
      split at ha
      · rename_i kvs hk
        cases ha
        refine ih (acc ++ m) _ o ?_ e
        rw [plainF_mapM] at hk
        rw [Option.getD_some, foldSet_last (plain F) m k kvs _ hk, lastMember_append]
        cases lastMember m k with
        | some U => rfl
        | none => exact h
      · cases ha
    | bool _ => cases ha
    | num _ => cases ha
    | str _ => cases ha
    | arr _ => cases ha

theorem fld_anyMap (F : FloatCodec) (m : List (Bytes × Tree)) (n k : Bytes) (o : Option (List (Bytes × Val))) (h : fld (intoAnyMap F) m n none = .ok o) :
    mapGet (o.getD []) k = (lastMember (sinceNull (valuesOf m n) []) k).bind (plain F) :=
  foldlM_anyMap F k _ [] none o rfl h

/-- Schemas, format configurations and transform configurations that come twice are merged, member by member: under every name is the
last member with this name among all the objects after the last null. -/
theorem C74_maps_merged (F : FloatCodec) (m : List (Bytes × Tree)) (k : Bytes) :
    (∀ s, structure_ F (.obj m) = .ok s →
      mapGet (s.schema.getD []) k = (lastMember (sinceNull (valuesOf m b!"schema") []) k).bind (plain F) ∧
      mapGet (s.formatConfig.getD []) k = (lastMember (sinceNull (valuesOf m b!"formatConfig") []) k).bind (plain F)) ∧
    ∀ q, transform F (.obj m) = .ok q → mapGet (q.config.getD []) k = (lastMember (sinceNull (valuesOf m b!"config") []) k).bind (plain F) := by
  constructor
  · intro s h
    have h : structureObj F m = .ok s := h
    unfold structureObj at h
    simp only [bind_ok_iff] at h
    obtain ⟨_, _, _, _, _, _, _, _, _, _, _, _, _, _, fc, hfc, _, _, _, _, _, _, sc, hsc, _, _, he⟩ := h
    rw [← Except.ok.inj he]
    exact ⟨fld_anyMap F m _ k sc hsc, fld_anyMap F m _ k fc hfc⟩
  · intro q h
    have h : transformObj F m = .ok q := h
    unfold transformObj at h
    simp only [bind_ok_iff] at h
    obtain ⟨c, hc, _, _, _, _, _, _, _, _, _, _, _, _, _, _, _, _, _, _, _, _, he⟩ := h
    rw [← Except.ok.inj he]
    exact fld_anyMap F m _ k c hc

theorem mapM_ok {α : Type} (f : Tree → D α) (m : List (Bytes × Tree)) : ∀ kvs, (m.mapM fun kv => (f kv.2).map fun a => (unquote kv.1, a)) = (.ok kvs : D _) →
    (m.mapM fun x => (f x.2).toOption.map fun a => (unquote x.1, a)) = some kvs := by
  induction m with
  | nil => intro kvs h; cases h; rfl
  | cons x m ih =>
    intro kvs h
    rw [List.mapM_cons, bind_ok_iff] at h
    obtain ⟨a, ha, h⟩ := h
    rw [bind_ok_iff] at h
    obtain ⟨b, hb, h⟩ := h
    cases h
    rw [List.mapM_cons, ih b hb]
    cases hf : f x.2 with
    | error e => rw [hf] at ha; cases ha
    | ok y => rw [hf] at ha; cases ha; rfl

theorem foldlM_mapOf {α : Type} (f : Tree → D α) (k : Bytes) (l : List Tree) : ∀ (acc : List (Bytes × Tree)) (old o : Option (List (Bytes × α))),
    mapGet (old.getD []) k = (lastMember acc k).bind (fun T => (f T).toOption) → l.foldlM (fun a T => intoMapOf f T a) old = (.ok o : D _) →
    mapGet (o.getD []) k = (lastMember (sinceNull l acc) k).bind (fun T => (f T).toOption) := by
  induction l with
  | nil => intro acc old o h e; cases e; exact h
  | cons T l ih =>
    intro acc old o h e
    rw [List.foldlM_cons, bind_ok_iff] at e
    obtain ⟨a, ha, e⟩ := e
    cases T with
    | null =>
      cases ha
      exact ih [] none o rfl e
    | obj m =>
      simp only [intoMapOf] at ha
      cases hk : (m.mapM fun kv => (f kv.2).map fun a => (unquote kv.1, a)) with
      | error x => rw [hk] at ha; cases ha
      | ok kvs =>
        rw [hk] at ha
        cases ha
        refine ih (acc ++ m) _ o ?_ e
        rw [Option.getD_some, foldSet_last (fun T => (f T).toOption) m k kvs _ (mapM_ok f m kvs hk), lastMember_append]
        cases lastMember m k with
        | some U => rfl
        | none => exact h
    | bool _ => cases ha
    | num _ => cases ha
    | str _ => cases ha
    | arr _ => cases ha

/-- The same for secrets and the syntaxes of a transform: under every name is the last string. -/
theorem C74_secrets_merged (F : FloatCodec) (m : List (Bytes × Tree)) (q : Transform) (h : transform F (.obj m) = .ok q) (k : Bytes) :
    (∀ v, mapGet (q.secrets.getD []) k = some v ↔ ∃ T, lastMember (sinceNull (valuesOf m b!"secrets") []) k = some T ∧ strOrNull T = true ∧ v = lastStr [T]) ∧
    ∀ v, mapGet (q.syntaxes.getD []) k = some v ↔ ∃ T, lastMember (sinceNull (valuesOf m b!"syntaxes") []) k = some T ∧ strOrNull T = true ∧ v = lastStr [T] := by
  have key : ∀ (l : List Tree) (o : Option (List (Bytes × Bytes))), l.foldlM (fun a T => intoMapOf strElem T a) none = (.ok o : D _) →
      ∀ v, mapGet (o.getD []) k = some v ↔ ∃ T, lastMember (sinceNull l []) k = some T ∧ strOrNull T = true ∧ v = lastStr [T] := by
    intro l o ho v
    rw [foldlM_mapOf strElem k l [] none o rfl ho, Option.bind_eq_some_iff]
    refine exists_congr fun T => and_congr_right fun _ => ?_
    cases T <;> simp [strElem, intoStr, strOrNull, lastStr, strOf, Except.toOption, eq_comm]
  have h : transformObj F m = .ok q := h
  unfold transformObj at h
  simp only [bind_ok_iff] at h
  obtain ⟨_, _, _, _, _, _, _, _, _, _, _, _, sc, hsc, _, _, _, _, _, _, sy, hsy, he⟩ := h
  rw [← Except.ok.inj he]
  exact ⟨key _ sc hsc, key _ sy hsy⟩

/-- `UnmarshalDataset` and its like take a document or its JSON text, and nothing else. -/
theorem C74_sources {α : Type} (f : Tree → D α) (s : Src α) (x : α) :
    unmarshal f s = .ok x ↔ s = .value x ∨ ∃ t T, s = .text t ∧ tree t = some T ∧ f T = .ok x := by
  cases s with
  | value y => simp [unmarshal]
  | text t =>
    simp only [unmarshal, read]
    cases h : tree t <;> simp [h]
  | other => simp [unmarshal]

/-! ### Examples -/

/-- a codec good enough for examples: numbers are kept as they are written when they have one digit -/
def F0 : FloatCodec := { fmt := fun _ => b!"1", parse := fun s => match s with | [c] => some (UInt64.ofNat c.toNat) | _ => none }

-- escapes and letter case in names, repeated members, unknown members
example : (read (dataset F0) b!" {\"NA\\u004dE\":\"a\",\"name\":null,\"x\":[1,{}],\"peername\":\"p\\n\",\"name\":\"b\"}\n").toOption.map (fun d => (d.name, d.peername)) =
    some (b!"b", b!"p\n") := by decide +kernel
example : read (dataset F0) b!"{\"name\":5}" = .error .mismatch := by decide +kernel
example : read (dataset F0) b!"{\"name\":\"a\",}" = .error .mismatch := by decide +kernel
-- an author is merged, a commit is not
example : (read commit b!"{\"author\":{\"id\":\"a\"},\"author\":{\"name\":\"b\"}}").toOption.map (·.author) =
    some (some { id := b!"a", fullname := b!"b" }) := by decide +kernel
example : (read (dataset F0) b!"{\"commit\":{\"title\":\"a\"},\"commit\":{\"message\":\"b\"}}").toOption.map (fun d => d.commit.map fun c => (c.title, c.message)) =
    some (some ([], b!"b")) := by decide +kernel
-- maps are merged, a body is replaced
example : (read (structure_ F0) b!"{\"schema\":{\"a\":1},\"schema\":{\"b\":null}}").toOption.map (·.schema) =
    some (some [(b!"a", .f64 49), (b!"b", .null)]) := by decide +kernel
example : (read (dataset F0) b!"{\"body\":{\"a\":1},\"body\":{\"b\":null}}").toOption.map (·.body) = some (.obj [(b!"b", .null)]) := by decide +kernel
-- bytes as base64, with line breaks, and as numbers
example : (read (dataset F0) b!"{\"bodyBytes\":\"aGVs\\nbG8=\"}").toOption.map (·.bodyBytes) = some (some b!"hello") := by decide +kernel
example : (read (dataset F0) b!"{\"bodyBytes\":[104,101,null]}").toOption.map (·.bodyBytes) = some (some [104, 101, 0]) := by decide +kernel
example : read (dataset F0) b!"{\"bodyBytes\":[256]}" = .error .mismatch := by decide +kernel
-- an int must be written as an integer
example : read (structure_ F0) b!"{\"depth\":1e1}" = .error .mismatch := by decide +kernel
example : (read (structure_ F0) b!"{\"depth\":-12}").toOption.map (·.depth) = some (-12) := by decide +kernel
-- text written
example : writeDataset F0 { name := b!"<n>", commit := some { title := b!"t" }, transform := some { text := b!"x", secrets := some [(b!"k", b!"s")] } } =
    some b!"{\"commit\":{\"qri\":\"cm:0\",\"timestamp\":\"0001-01-01T00:00:00Z\",\"title\":\"t\"},\"name\":\"\\u003cn\\u003e\",\"qri\":\"ds:0\",\"transform\":{\"qri\":\"tf:0\",\"text\":\"x\"}}" := by
  decide +kernel
example : writeDataset F0 { path := b!"/p" } = some b!"\"/p\"" := by decide +kernel
-- a title that is not UTF-8 does not come back
example : (writeDataset F0 { name := [0xff] }).map (fun t => (read (dataset F0) t).toOption.map (·.name)) = some (some [0xef, 0xbf, 0xbd]) := by decide +kernel
-- a NaN has no text
example : writeDataset F0 { body := .arr [.f64 0x7FF8000000000001] } = none := by decide +kernel
-- unknown members of meta
example : (read (meta_ F0) b!"{\"Title\":\"a\",\"foo\":true}").toOption.map (fun m => (m.title, m.arbitrary)) =
    some (b!"a", some [(b!"Title", .str b!"a"), (b!"foo", .bool true)]) := by decide +kernel

/-- a dataset the round trip is about -/
def sample : Dataset :=
  { name := b!"n\"<", body := .arr [.obj [(b!"a", .str b!"x"), (b!"b", .bool true)], .null], bodyBytes := some [1, 2],
    meta_ := some { title := b!"t", keywords := some [b!"k"], arbitrary := some [(b!"foo", .arr [.str b!"bar"])] },
    structure_ := some { format := b!"json", depth := 2, schema := some [(b!"type", .str b!"array")] } }

theorem vld {s : Bytes} (h : s.all (fun c => c.toNat < 0x80) = true) : ValidUtf8 s := ascii_valid s h

example : DatasetText F0 sample ∧ Levels sample (maxDepth - 4) := by
  refine ⟨⟨?_, vld rfl, ?_, vld rfl, ?_, vld rfl, vld rfl, vld rfl, vld rfl, vld rfl, ?_, by decide, vld rfl, ?_, ?_, ?_, ?_⟩, ⟨?_, ?_, ?_, ?_, ?_, ?_, ?_⟩⟩
  · exact ⟨⟨by decide, vld rfl, vld rfl, vld rfl, trivial, trivial⟩, trivial, trivial⟩
  · rintro c ⟨⟩
  · rintro m ⟨⟩
    exact ⟨⟨by decide, vld rfl, ⟨vld rfl, trivial⟩, trivial⟩, by decide +kernel, vld rfl, vld rfl, by simp, by simp, vld rfl, vld rfl, vld rfl, vld rfl,
      by intro s hs; simp at hs; subst hs; exact vld rfl, by simp, by simp, vld rfl, vld rfl, vld rfl, by simp, vld rfl⟩
  · rintro c ⟨⟩
  · rintro s ⟨⟩
    exact ⟨vld rfl, vld rfl, by decide, vld rfl, by decide, by decide, vld rfl, ⟨by decide, trivial⟩, by decide, vld rfl, vld rfl,
      ⟨by decide, vld rfl, vld rfl, trivial⟩⟩
  · rintro c ⟨⟩
  · rintro c ⟨⟩
  · rintro c ⟨⟩
  · decide
  · rintro m ⟨⟩; decide
  · rintro s ⟨⟩; decide
  · rintro s ⟨⟩; decide
  · rintro s ⟨⟩
  · rintro s ⟨⟩
  · rintro s ⟨⟩

example : (writeDataset F0 sample).bind (fun t => (read (dataset F0) t).toOption) = some sample.kept := by decide +kernel

/-- a null after the first object empties the map -/
example : (read (structure_ F0) b!"{\"schema\":{\"a\":1},\"schema\":null,\"Schema\":{\"b\":true,\"b\":false}}").toOption.map (·.schema) =
    some (some [(b!"b", .bool false)]) := by decide +kernel
/-- a null secret is the empty text -/
example : (read (transform F0) b!"{\"secrets\":{\"a\":\"1\",\"b\":\"2\"},\"secrets\":{\"b\":null}}").toOption.map (·.secrets) =
    some (some [(b!"a", b!"1"), (b!"b", [])]) := by decide +kernel
example : (read (dataset F0) b!"{\"commit\":{\"title\":\"a\"},\"commit\":null}").toOption.map (·.commit) = some none := by decide +kernel

end Verif.DocText
