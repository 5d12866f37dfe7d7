import Verif.Model.Disk
import Verif.Lemmas.FloatWrite
import Verif.Lemmas.Indented
import Verif.Props.Compare
import Verif.Props.DocText
/-
C84: golden files of tests.
-/
set_option autoImplicit false
namespace Verif.Disk
open Verif.Doc
open DocText (DatasetText Levels CommitText MetaText ReadmeText VizText StructureText StatsText TransformText)

/-! ### What a dataset must be like to be found again in its golden file -/

/-- Components that a golden file holds as they are: either nothing but a path, or with a kind and without what JSON drops.
Of a structure, everything but the path is dropped if it has a path but neither an encoding nor a schema; of readmes and vizs the
path is dropped whenever anything else is set; of transforms the secrets are. -/
def CommitStays (c : Commit) : Prop :=
  (c.path ≠ [] ∧ c = { path := c.path }) ∨ (¬ (c.path ≠ [] ∧ c.isEmpty = true) ∧ c.qri ≠ [])
def MetaStays (m : Meta) : Prop :=
  (m.path ≠ [] ∧ { m with arbitrary := none } = ({ path := m.path } : Meta)) ∨ (¬ (m.path ≠ [] ∧ m.isEmpty = true) ∧ m.qri = b!"md:0")
def ReadmeStays (r : Readme) : Prop :=
  (r.path ≠ [] ∧ r.isEmpty = true ∧ r.qri = []) ∨ (r.path = [] ∧ r.qri ≠ [])
def VizStays (r : Viz) : Prop :=
  (r.path ≠ [] ∧ r.isEmpty = true ∧ r.qri = []) ∨ (r.path = [] ∧ r.qri ≠ [])
def StructureStays (s : Structure) : Prop :=
  (s.path ≠ [] ∧ s = { path := s.path }) ∨
    (¬ (s.path ≠ [] ∧ s.encoding = [] ∧ s.schema = none) ∧ s.qri ≠ [] ∧ s.formatConfig ≠ some [] ∧ s.schema ≠ some [])
def StatsStays (s : Stats) : Prop :=
  (s.path ≠ [] ∧ s.stats = .null ∧ s.qri = []) ∨ (¬ (s.path ≠ [] ∧ s.stats = .null) ∧ s.qri ≠ [])
def TransformStays (q : Transform) : Prop :=
  (q.path ≠ [] ∧ q.isEmpty = true ∧ q.qri = []) ∨
    (¬ (q.path ≠ [] ∧ q.isEmpty = true) ∧ q.qri ≠ [] ∧ q.secrets = none ∧
      q.config ≠ some [] ∧ q.resources ≠ some [] ∧ q.steps ≠ some [] ∧ q.syntaxes ≠ some [])

structure Stays (d : Dataset) : Prop where
  bodyBytes : d.bodyBytes ≠ some []
  commit : ∀ c, d.commit = some c → CommitStays c
  meta_ : ∀ m, d.meta_ = some m → MetaStays m
  readme : ∀ r, d.readme = some r → ReadmeStays r
  viz : ∀ r, d.viz = some r → VizStays r
  structure_ : ∀ s, d.structure_ = some s → StructureStays s
  stats : ∀ s, d.stats = some s → StatsStays s
  transform : ∀ q, d.transform = some q → TransformStays q

/-! ### Components -/

theorem normMap_eq {α : Type} (m : Option (List (Bytes × α))) : normMap m = m ↔ m ≠ some [] := by
  unfold normMap; split <;> simp_all
theorem normList_eq {α : Type} (m : Option (List α)) : normList m = m ↔ m ≠ some [] := by
  unfold normList; split <;> simp_all
theorem kindOr_eq {q k : Bytes} (hk : k ≠ []) : kindOr q k = q ↔ q ≠ [] := by
  unfold kindOr; split <;> simp_all

theorem commit_stays (c : Commit) : c.kept = c ↔ CommitStays c := by
  unfold Commit.kept CommitStays
  split
  · rename_i h
    constructor
    · intro e; exact .inl ⟨h.1, e.symm⟩
    · rintro (⟨_, e⟩ | ⟨h', _⟩)
      · exact e.symm
      · exact absurd h h'
  · rename_i h
    constructor
    · intro e
      right
      refine ⟨h, (kindOr_eq (k := kindCommit) (by decide)).1 ?_⟩
      exact congrArg Commit.qri e
    · rintro (⟨h1, e⟩ | ⟨_, e⟩)
      · refine absurd ⟨h1, ?_⟩ h
        rw [e]; rfl
      · rw [(kindOr_eq (by decide)).2 e]

mutual
theorem kept_nan (F : FloatCodec) : ∀ v : Val, Ndjson.Kept F v → NaNFree v
  | .null, _ => trivial
  | .bool _, _ => trivial
  | .int _, _ => trivial
  | .gint _, _ => trivial
  | .f64 x, h => by
    rw [Ndjson.Kept] at h
    exact ((FloatText.finite_iff x).1 h.2.2).notNaN
  | .str _, _ => trivial
  | .bytes _, _ => trivial
  | .arr l, h => by rw [Ndjson.Kept] at h; rw [NaNFree]; exact keptL_nan F l h
  | .obj m, h => by rw [Ndjson.Kept] at h; rw [NaNFree]; exact keptF_nan F m h.2
theorem keptL_nan (F : FloatCodec) : ∀ l : List Val, Ndjson.KeptL F l → NaNFreeL l
  | [], _ => trivial
  | v :: l, h => by rw [Ndjson.KeptL] at h; exact ⟨kept_nan F v h.1, keptL_nan F l h.2⟩
theorem keptF_nan (F : FloatCodec) : ∀ m : List (Bytes × Val), Ndjson.KeptF F m → NaNFreeF m
  | [], _ => trivial
  | (k, v) :: m, h => by rw [Ndjson.KeptF] at h; exact ⟨kept_nan F v h.2.1, keptF_nan F m h.2.2⟩
end

theorem data_self {F : FloatCodec} {v : Val} (h : Ndjson.Kept F v) : DataEq v v := ⟨kept_nan F v h, .same _⟩

theorem map_self {F : FloatCodec} {m : Option (List (Bytes × Val))} (h : DocText.MapKept F m) : MapEq m m :=
  both_eq_refl (R := fun x y => DataEq (.obj x) (.obj y)) _ (fun l hl => ⟨by rw [hl] at h; exact keptF_nan F l h.2, .same _⟩)

theorem map_norm {F : FloatCodec} {m : Option (List (Bytes × Val))} (h : DocText.MapKept F m) : MapEq (normMap m) m ↔ m ≠ some [] := by
  constructor
  · rintro e rfl
    rcases e with ⟨_, e⟩ | ⟨_, _, e, _⟩ <;> cases e
  · intro e
    rw [(normMap_eq m).2 e]
    exact map_self h

theorem meta_stays (m : Meta) : ({ m.kept with arbitrary := none } : Meta) = { m with arbitrary := none } ↔ MetaStays m := by
  unfold Meta.kept MetaStays
  split
  · rename_i h
    constructor
    · intro e; exact .inl ⟨h.1, e.symm⟩
    · rintro (⟨_, e⟩ | ⟨h', _⟩)
      · exact e.symm
      · exact absurd h h'
  · rename_i h
    constructor
    · intro e
      exact .inr ⟨h, (congrArg Meta.qri e).symm⟩
    · rintro (⟨h1, e⟩ | ⟨_, e⟩)
      · refine absurd ⟨h1, ?_⟩ h
        have : ({ m with arbitrary := none } : Meta).isEmpty = true := by rw [e]; rfl
        exact this
      · have e' : kindMeta = m.qri := e.symm
        simp only [e']

theorem readme_stays (r : Readme) :
    ({ r.kept with scriptFile := none, renderedFile := none } : Readme) = { r with scriptFile := none, renderedFile := none } ↔ ReadmeStays r := by
  have he : r.isEmpty = true ↔ r.format = [] ∧ r.text = [] ∧ r.scriptPath = [] ∧ r.renderedPath = [] := by
    simp [Readme.isEmpty, and_assoc]
  unfold Readme.kept ReadmeStays
  split
  · rename_i h
    have h2 := he.1 h.2
    constructor
    · intro e; exact .inl ⟨h.1, h.2, (congrArg Readme.qri e).symm⟩
    · rintro (⟨_, _, e⟩ | ⟨h', _⟩)
      · simp [h2, e]
      · exact absurd h' h.1
  · rename_i h
    have hk := kindOr_eq (q := r.qri) (k := kindReadme) (by decide)
    constructor
    · intro e; exact .inr ⟨(congrArg Readme.path e).symm, hk.1 (congrArg Readme.qri e)⟩
    · rintro (⟨h1, h2, _⟩ | ⟨h1, h2⟩)
      · exact absurd ⟨h1, h2⟩ h
      · simp [h1, hk.2 h2]

theorem viz_stays (r : Viz) :
    ({ r.kept with scriptFile := none, renderedFile := none } : Viz) = { r with scriptFile := none, renderedFile := none } ↔ VizStays r := by
  have he : r.isEmpty = true ↔ r.format = [] ∧ r.text = [] ∧ r.scriptPath = [] ∧ r.renderedPath = [] := by
    simp [Viz.isEmpty, and_assoc]
  unfold Viz.kept VizStays
  split
  · rename_i h
    have h2 := he.1 h.2
    constructor
    · intro e; exact .inl ⟨h.1, h.2, (congrArg Viz.qri e).symm⟩
    · rintro (⟨_, _, e⟩ | ⟨h', _⟩)
      · simp [h2, e]
      · exact absurd h' h.1
  · rename_i h
    have hk := kindOr_eq (q := r.qri) (k := kindViz) (by decide)
    constructor
    · intro e; exact .inr ⟨(congrArg Viz.path e).symm, hk.1 (congrArg Viz.qri e)⟩
    · rintro (⟨h1, h2, _⟩ | ⟨h1, h2⟩)
      · exact absurd ⟨h1, h2⟩ h
      · simp [h1, hk.2 h2]

theorem stats_stays {F : FloatCodec} (s : Stats) (hs : StatsText F s) :
    (s.kept.path = s.path ∧ s.kept.qri = s.qri ∧ DataEq s.kept.stats s.stats) ↔ StatsStays s := by
  have he : s.isEmpty = true ↔ s.stats = .null := by simp [Stats.isEmpty]
  unfold Stats.kept StatsStays
  split
  · rename_i h
    rw [he] at h
    constructor
    · intro e; exact .inl ⟨h.1, h.2, e.2.1.symm⟩
    · rintro (⟨_, h2, e⟩ | ⟨h', _⟩)
      · refine ⟨rfl, e.symm, ?_⟩
        rw [h2]; exact ⟨trivial, .same _⟩
      · exact absurd h h'
  · rename_i h
    rw [he] at h
    have hk := kindOr_eq (q := s.qri) (k := kindStats) (by decide)
    constructor
    · intro e; exact .inr ⟨h, hk.1 e.2.1⟩
    · rintro (⟨h1, h2, _⟩ | ⟨_, h2⟩)
      · exact absurd ⟨h1, h2⟩ h
      · exact ⟨rfl, hk.2 h2, data_self hs.stats⟩

theorem structure_stays {F : FloatCodec} (s : Structure) (hs : StructureText F s) : StructureEq s.kept s ↔ StructureStays s := by
  unfold Structure.kept StructureStays
  split
  · rename_i h
    constructor
    · intro e
      refine .inl ⟨h.1, ?_⟩
      obtain ⟨e1, e2, e3, e4, e5, e6, e7, e8, e9, e10, e11, e12, e13⟩ := e
      have h8 : s.formatConfig = none := by rcases e8 with ⟨_, h⟩ | ⟨_, _, h, _⟩; exact h; cases h
      obtain ⟨checksum, compression, depth, encoding, errCount, entries, format, formatConfig, length, path, qri, schema, strict⟩ := s
      simp_all
    · rintro (⟨_, e⟩ | ⟨h', _⟩)
      · rw [← e]
        exact ⟨rfl, rfl, rfl, rfl, rfl, rfl, rfl, map_self hs.formatConfig, rfl, rfl, rfl, map_self hs.schema, rfl⟩
      · exact absurd h h'
  · rename_i h
    have hk := kindOr_eq (q := s.qri) (k := kindStructure) (by decide)
    constructor
    · intro e
      obtain ⟨_, _, _, _, _, _, _, e8, _, _, e11, e12, _⟩ := e
      exact .inr ⟨h, hk.1 e11, (map_norm hs.formatConfig).1 e8, (map_norm hs.schema).1 e12⟩
    · rintro (⟨h1, e⟩ | ⟨_, h1, h2, h3⟩)
      · refine absurd ⟨h1, ?_, ?_⟩ h <;> rw [e]
      · exact ⟨rfl, rfl, rfl, rfl, rfl, rfl, rfl, (map_norm hs.formatConfig).2 h2, rfl, rfl, hk.2 h1, (map_norm hs.schema).2 h3, rfl⟩

theorem steps_self {F : FloatCodec} (l : List (Option TransformStep)) (h : ∀ x ∈ l, ∀ s, x = some s → DocText.StepText F s) :
    List.Forall₂ (Both StepEq) l l := by
  induction l with
  | nil => exact .nil
  | cons o l ih =>
    refine .cons (both_eq_refl _ fun s hs => ⟨rfl, rfl, rfl, rfl, data_self (h o (.head _) s hs).script⟩) (ih fun x hx => h x (.tail _ hx))

theorem steps_norm {F : FloatCodec} {o : Option (List (Option TransformStep))} (h : ∀ x ∈ o.getD [], ∀ s, x = some s → DocText.StepText F s) :
    StepsEq (normList o) o ↔ o ≠ some [] := by
  constructor
  · rintro e rfl
    rcases e with ⟨_, e⟩ | ⟨_, _, e, _⟩ <;> cases e
  · intro e
    rw [(normList_eq o).2 e]
    refine both_eq_refl _ fun l hl => steps_self (F := F) l ?_
    rw [hl] at h
    exact h

theorem transform_stays {F : FloatCodec} (q : Transform) (hq : TransformText F q) : TransformEq q.kept q ↔ TransformStays q := by
  have he : q.isEmpty = true ↔ q.config = none ∧ q.resources = none ∧ q.text = [] ∧ q.scriptPath = [] ∧ q.secrets = none ∧ q.steps = none ∧
      q.syntaxName = [] ∧ q.syntaxVersion = [] ∧ q.syntaxes = none := by
    simp [Transform.isEmpty, and_assoc]
  unfold Transform.kept TransformStays
  split
  · rename_i h
    constructor
    · intro e
      exact .inl ⟨h.1, h.2, e.1.2.1.symm⟩
    · rintro (⟨_, h2, e⟩ | ⟨h', _⟩)
      · obtain ⟨a1, a2, a3, a4, a5, a6, a7, a8, a9⟩ := he.1 h2
        exact ⟨⟨.inl ⟨rfl, a1⟩, e.symm, a2.symm, a4.symm, a3.symm, a5.symm, .inl ⟨rfl, a6⟩, a7.symm, a8.symm, a9.symm⟩, rfl⟩
      · exact absurd h h'
  · rename_i h
    have hk := kindOr_eq (q := q.qri) (k := kindTransform) (by decide)
    constructor
    · rintro ⟨⟨e1, e2, e3, e4, e5, e6, e7, e8, e9, e10⟩, _⟩
      exact .inr ⟨h, hk.1 e2, e6.symm, (map_norm hq.config).1 e1, (normMap_eq _).1 e3, (steps_norm hq.steps).1 e7, (normMap_eq _).1 e10⟩
    · rintro (⟨h1, h2, _⟩ | ⟨_, h1, h2, h3, h4, h5, h6⟩)
      · exact absurd ⟨h1, h2⟩ h
      · exact ⟨⟨(map_norm hq.config).2 h3, hk.2 h1, (normMap_eq _).2 h4, rfl, rfl, h2.symm, (steps_norm hq.steps).2 h5, rfl, rfl, (normMap_eq _).2 h6⟩, rfl⟩

theorem both_map {α : Type} {R : α → α → Prop} {P : α → Prop} (k : α → α) (o : Option α) (h : ∀ x, o = some x → (R (k x) x ↔ P x)) :
    Both R (o.map k) o ↔ ∀ x, o = some x → P x := by
  cases o with
  | none => exact ⟨fun _ _ h => (by cases h), fun _ => .inl ⟨rfl, rfl⟩⟩
  | some x =>
    constructor
    · rintro (⟨h1, _⟩ | ⟨y, z, h1, h2, h3⟩) w hw
      · cases h1
      · cases hw; cases h2; cases h1; exact (h _ rfl).1 h3
    · intro hx; exact .inr ⟨_, _, rfl, rfl, (h x rfl).2 (hx x rfl)⟩

theorem dataset_stays {F : FloatCodec} (d : Dataset) (h : DatasetText F d) : DatasetEq d.kept d ↔ Stays d := by
  have hb := data_self h.body
  unfold Dataset.kept
  split
  · rename_i he
    have he' := he.2
    simp only [Dataset.isEmpty, Bool.and_eq_true, decide_eq_true_eq] at he'
    obtain ⟨⟨⟨⟨⟨⟨⟨⟨⟨⟨⟨⟨⟨⟨a1, a2⟩, a3⟩, a4⟩, a5⟩, a6⟩, a7⟩, a8⟩, a9⟩, a10⟩, a11⟩, a12⟩, a13⟩, a14⟩, a15⟩ := he'
    constructor
    · intro _
      constructor <;> simp [a2, a4, a6, a11, a12, a13, a14, a15]
    · intro _
      refine ⟨?_, a2.symm, a3.symm, a4.symm, a5.symm, .inl ⟨rfl, a6⟩, a7.symm, rfl, a8.symm, a9.symm, a10.symm, .inl ⟨rfl, a13⟩, .inl ⟨rfl, a11⟩, .inl ⟨rfl, a14⟩,
        .inl ⟨rfl, a12⟩, .inl ⟨rfl, a15⟩⟩
      rw [a1]; exact ⟨trivial, .same _⟩
  · have hc : d.commit.map Commit.kept = d.commit ↔ ∀ c, d.commit = some c → CommitStays c := by
      cases hd : d.commit with
      | none => simp
      | some c => simp [commit_stays]
    have hm := both_map (R := fun m n => ({ m with arbitrary := none } : Meta) = { n with arbitrary := none }) Meta.kept d.meta_ fun x _ => meta_stays x
    have hr := both_map (R := fun r s => ({ r with scriptFile := none, renderedFile := none } : Readme) = { s with scriptFile := none, renderedFile := none })
      Readme.kept d.readme fun x _ => readme_stays x
    have hv := both_map (R := fun r s => ({ r with scriptFile := none, renderedFile := none } : Viz) = { s with scriptFile := none, renderedFile := none })
      Viz.kept d.viz fun x _ => viz_stays x
    have hs := both_map (R := StructureEq) Structure.kept d.structure_ fun x hx => structure_stays x (h.structure_ x hx)
    have ht := both_map (R := fun s t => s.path = t.path ∧ s.qri = t.qri ∧ DataEq s.stats t.stats) Stats.kept d.stats fun x hx => stats_stays x (h.stats x hx)
    have hq := both_map (R := TransformEq) Transform.kept d.transform fun x hx => transform_stays x (h.transform x hx)
    constructor
    · rintro ⟨_, e2, _, e4, _, e6, _, _, _, _, _, e12, e13, e14, e15, e16⟩
      exact ⟨(normList_eq _).1 e2, hc.1 e4, hm.1 e6, hr.1 e12, hv.1 e16, hs.1 e13, ht.1 e14, hq.1 e15⟩
    · rintro ⟨e1, e2, e3, e4, e5, e6, e7, e8⟩
      exact ⟨hb, (normList_eq _).2 e1, rfl, hc.2 e2, rfl, hm.2 e3, rfl, rfl, rfl, rfl, rfl, hr.2 e4, hs.2 e6, ht.2 e7, hq.2 e8, hv.2 e5⟩

/-! ### Golden files -/

theorem ws_two : JsonG.WS b!"  " := by
  intro c hc
  have : b!"  " = [32, 32] := rfl
  rw [this] at hc
  simp at hc
  exact .inl hc

theorem golden_written {F : FloatCodec} (d : Dataset) (h : DatasetText F d) (hl : Levels d (JsonStd.maxDepth - 4)) :
    ∃ t, goldenText F d = some t ∧ DocText.read (DocText.dataset F) t = .ok d.kept := by
  obtain ⟨v, h1, _, h3, h4⟩ := DocText.dataset_val F d h
  have hv := DocText.dl_dataset hl h1
  rw [show JsonStd.maxDepth - 4 + 4 = JsonStd.maxDepth by decide] at hv
  refine ⟨encP F [] b!"  " 0 v, ?_, ?_⟩
  · rw [goldenText, h1, Option.bind_some, if_pos h3.2]
  · rw [DocText.read, JsonStd.tree_encP F Json.ws_nil ws_two v 0 h3.1 hv]
    exact h4

/-- A test against a golden file that can be loaded passes exactly if the dataset agrees with the golden one; a test that passes, and any
test while the variable is empty, leaves all files as they are; a test that fails says so even if the file is updated. -/
theorem C84_golden_check (F : FloatCodec) (env : Bytes) (disk : Disk) (path : Bytes) (got : Dataset) :
    ((checkGolden F env disk path got).1 = .passed ↔ ∃ data d, disk path = .file data false ∧ DocText.read (DocText.dataset F) data = .ok d ∧ DatasetEq d got) ∧
    ((checkGolden F env disk path got).1 = .passed ∨ env = [] → (checkGolden F env disk path got).2 = disk) ∧
    ∀ p, p ≠ path → (checkGolden F env disk path got).2 p = disk p := by
  have hld : ∀ d, loadGolden F disk path = some d ↔ ∃ data, disk path = .file data false ∧ DocText.read (DocText.dataset F) data = .ok d := by
    intro d
    unfold loadGolden Node.readFile
    cases disk path with
    | file data b =>
      cases b with
      | false => cases hr : DocText.read (DocText.dataset F) data <;> simp [hr, Except.toOption]
      | true => simp
    | _ => simp
  unfold checkGolden
  cases hg : loadGolden F disk path with
  | none =>
    refine ⟨⟨nofun, ?_⟩, fun _ => rfl, fun _ _ => rfl⟩
    rintro ⟨data, d, h1, h2, _⟩
    rw [(hld d).2 ⟨data, h1, h2⟩] at hg
    cases hg
  | some e =>
    have h68 := C68_datasets (some e) (some got)
    simp only [Option.getD_some] at h68
    have hex : (∃ data d, disk path = .file data false ∧ DocText.read (DocText.dataset F) data = .ok d ∧ DatasetEq d got) ↔ DatasetEq e got := by
      obtain ⟨data, h1, h2⟩ := (hld e).1 hg
      constructor
      · rintro ⟨data', d, h1', h2', h3⟩
        rw [(hld d).2 ⟨data', h1', h2'⟩] at hg
        cases hg
        exact h3
      · intro h3; exact ⟨data, e, h1, h2, h3⟩
    rw [hex, ← h68]
    simp only
    split
    · rename_i hc
      exact ⟨⟨fun _ => hc, fun _ => rfl⟩, fun _ => rfl, fun _ _ => rfl⟩
    · rename_i hc
      cases hu : updateGolden F env disk path got with
      | none => exact ⟨⟨nofun, fun h => absurd h hc⟩, fun _ => rfl, fun _ _ => rfl⟩
      | some disk' =>
        refine ⟨⟨nofun, fun h => absurd h hc⟩, ?_, ?_⟩
        · rintro (h | h)
          · cases h
          · rw [updateGolden, if_pos h] at hu; cases hu; rfl
        · intro p hp
          unfold updateGolden at hu
          split at hu
          · cases hu; rfl
          · cases ht : goldenText F got with
            | none => rw [ht] at hu; cases hu
            | some t => rw [ht] at hu; cases hu; simp [Disk.put, hp]

/-- **C84** Updating a golden file and testing again, with a dataset that JSON text can carry: the first test fails and updates the file, and
the second passes exactly if everything in the dataset stays as it is in a golden file.  Otherwise no update ever makes the test pass. -/
theorem C84_golden_update (F : FloatCodec) (env env' : Bytes) (disk : Disk) (path : Bytes) (got : Dataset) (h : DatasetText F got)
    (hl : Levels got (JsonStd.maxDepth - 4)) (he : env ≠ []) (hf : (checkGolden F env disk path got).1 ≠ .passed) (hne : (checkGolden F env disk path got).1 ≠ .ended) :
    (checkGolden F env disk path got).1 = .failed ∧
    ((checkGolden F env' (checkGolden F env disk path got).2 path got).1 = .passed ↔ Stays got) := by
  obtain ⟨t, h1, h2⟩ := golden_written got h hl
  have hu : updateGolden F env disk path got = some (disk.put path t) := by rw [updateGolden, if_neg he, h1]; rfl
  have hck : checkGolden F env disk path got = (.failed, disk.put path t) := by
    unfold checkGolden at hf hne ⊢
    cases hg : loadGolden F disk path with
    | none => rw [hg] at hne; exact absurd rfl hne
    | some e =>
      rw [hg] at hf
      simp only [hu] at hf ⊢
      split at hf
      · exact absurd rfl hf
      · rename_i hc
        rw [if_neg hc]
  refine ⟨by rw [hck], ?_⟩
  rw [(C84_golden_check F env' _ path got).1, ← dataset_stays got h, hck]
  constructor
  · rintro ⟨data, d, e1, e2, e3⟩
    simp only [Disk.put, if_true, Node.file.injEq, and_true] at e1
    subst e1
    rw [h2] at e2
    cases e2
    exact e3
  · intro e
    exact ⟨t, got.kept, by simp [Disk.put], h2, e⟩

-- an empty variable: the file stays as it is; else the file is written, and the next test passes
def oldDisk : Disk := fun p => if p = b!"g.json" then .file b!"{\"name\":\"old\"}" false else .absent
def newName : Dataset := { name := b!"new", qri := b!"ds:0" }

example : (checkGolden DocText.F0 [] oldDisk b!"g.json" newName).1 = .failed ∧
    (checkGolden DocText.F0 [] oldDisk b!"g.json" newName).2 b!"g.json" = .file b!"{\"name\":\"old\"}" false ∧
    (checkGolden DocText.F0 b!"1" oldDisk b!"g.json" newName).1 = .failed ∧
    (checkGolden DocText.F0 b!"1" oldDisk b!"g.json" newName).2 b!"g.json" = .file b!"{\n  \"name\": \"new\",\n  \"qri\": \"ds:0\"\n}" false ∧
    (checkGolden DocText.F0 [] (checkGolden DocText.F0 b!"1" oldDisk b!"g.json" newName).2 b!"g.json" newName).1 = .passed := by decide +kernel

example : (checkGolden DocText.F0 b!"1" oldDisk b!"h.json" newName).1 = .ended := by decide +kernel

-- a readme without a kind, and secrets, are never found again
example : ¬ Stays { readme := some { text := b!"x" } } ∧ ¬ Stays { transform := some { text := b!"x", qri := b!"tf:0", secrets := some [(b!"k", b!"s")] } } ∧
    Stays { readme := some { text := b!"x", qri := b!"rm:0" } } := by
  refine ⟨fun h => ?_, fun h => ?_, ?_⟩
  · have := h.readme _ rfl
    revert this; unfold ReadmeStays; simp
  · have := h.transform _ rfl
    revert this; unfold TransformStays; simp [Transform.isEmpty]
  · constructor <;> simp [ReadmeStays]

example : (checkGolden DocText.F0 [] (checkGolden DocText.F0 b!"1" oldDisk b!"g.json" { readme := some { text := b!"x" } }).2 b!"g.json" { readme := some { text := b!"x" } }).1 = .failed := by
  decide +kernel

end Verif.Disk
