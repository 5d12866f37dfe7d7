import Verif.Props.DocJson
import Verif.Props.DocText
/-
C77: what IsEmpty calls empty, and which components are written as a bare path.
-/
set_option autoImplicit false
namespace Verif.Doc

/-- A component is empty iff it is the zero component but for its path, its kind, and the parts IsEmpty overlooks: the entries a meta
carries beside its fields, open files, and a dataset's open body and number of versions. -/
theorem C77_empty_iff :
    (∀ c : Commit, c.isEmpty = true ↔ c = { path := c.path, qri := c.qri }) ∧
    (∀ m : Meta, m.isEmpty = true ↔ m = { path := m.path, qri := m.qri, arbitrary := m.arbitrary }) ∧
    (∀ s : Structure, s.isEmpty = true ↔ s = { path := s.path, qri := s.qri }) ∧
    (∀ s : Stats, s.isEmpty = true ↔ s = { path := s.path, qri := s.qri }) ∧
    (∀ q : Transform, q.isEmpty = true ↔ q = { path := q.path, qri := q.qri, scriptFile := q.scriptFile }) ∧
    (∀ r : Readme, r.isEmpty = true ↔ r = { path := r.path, qri := r.qri, scriptFile := r.scriptFile, renderedFile := r.renderedFile }) ∧
    (∀ v : Viz, v.isEmpty = true ↔ v = { path := v.path, qri := v.qri, scriptFile := v.scriptFile, renderedFile := v.renderedFile }) ∧
    (∀ d : Dataset, d.isEmpty = true ↔ d = { path := d.path, qri := d.qri, bodyFile := d.bodyFile, numVersions := d.numVersions }) := by
  refine ⟨?_, ?_, ?_, ?_, ?_, ?_, ?_, ?_⟩
  · rintro ⟨⟩; simp [Commit.isEmpty, Time.isZero, and_assoc]
  · rintro ⟨⟩; simp [Meta.isEmpty, and_assoc]
  · rintro ⟨⟩; simp [Structure.isEmpty, and_assoc]; intros; constructor <;> (intro h; simp_all)
  · rintro ⟨⟩; simp [Stats.isEmpty]
  · rintro ⟨⟩; simp [Transform.isEmpty, and_assoc]; intros; constructor <;> (intro h; simp_all)
  · rintro ⟨⟩; simp [Readme.isEmpty, and_assoc]; intros; constructor <;> (intro h; simp_all)
  · rintro ⟨⟩; simp [Viz.isEmpty, and_assoc]; intros; constructor <;> (intro h; simp_all)
  · rintro ⟨⟩; simp [Dataset.isEmpty, and_assoc]; intros; constructor <;> (intro h; simp_all)

/-- A component is written as the bare string `p` iff its path is `p`, not empty, and IsEmpty holds; a structure already when it has
neither encoding nor schema. -/
theorem C77_reference_iff (p : Bytes) :
    (∀ c : Commit, c.enc = some (.str p) ↔ p ≠ [] ∧ c = { path := p, qri := c.qri }) ∧
    (∀ m : Meta, m.enc = .str p ↔ p ≠ [] ∧ m = { path := p, qri := m.qri, arbitrary := m.arbitrary }) ∧
    (∀ s : Structure, s.enc = .str p ↔ p ≠ [] ∧ s.path = p ∧ s.encoding = [] ∧ s.schema = none) ∧
    (∀ s : Stats, s.enc = .str p ↔ p ≠ [] ∧ s = { path := p, qri := s.qri }) ∧
    (∀ q : Transform, q.enc = .str p ↔ p ≠ [] ∧ q = { path := p, qri := q.qri, scriptFile := q.scriptFile }) ∧
    (∀ r : Readme, r.enc = .str p ↔ p ≠ [] ∧ r = { path := p, qri := r.qri, scriptFile := r.scriptFile, renderedFile := r.renderedFile }) ∧
    (∀ v : Viz, v.enc = .str p ↔ p ≠ [] ∧ v = { path := p, qri := v.qri, scriptFile := v.scriptFile, renderedFile := v.renderedFile }) ∧
    (∀ d : Dataset, d.enc = some (.str p) ↔ p ≠ [] ∧ d = { path := p, qri := d.qri, bodyFile := d.bodyFile, numVersions := d.numVersions }) := by
  obtain ⟨e1, e2, e3, e4, e5, e6, e7, e8⟩ := C77_empty_iff
  refine ⟨?_, ?_, ?_, ?_, ?_, ?_, ?_, ?_⟩
  · intro c
    unfold Commit.enc
    split
    · rename_i h
      have := (e1 c).mp h.2
      constructor
      · intro he
        have hp : c.path = p := by simpa using he
        subst hp
        exact ⟨h.1, this⟩
      · rintro ⟨_, he⟩; rw [he]
    · rename_i h
      constructor
      · intro he; unfold Commit.encObj at he; cases ht : encTime c.timestamp <;> simp [ht] at he
      · rintro ⟨hp, he⟩
        exact absurd ⟨by rw [he]; exact hp, (e1 c).mpr (by rw [he])⟩ h
  · intro m
    unfold Meta.enc
    split
    · rename_i h
      have := (e2 m).mp h.2
      constructor
      · intro he
        have hp : m.path = p := by simpa using he
        subst hp
        exact ⟨h.1, this⟩
      · rintro ⟨_, he⟩; rw [he]
    · rename_i h
      constructor
      · intro he; cases he
      · rintro ⟨hp, he⟩
        exact absurd ⟨by rw [he]; exact hp, (e2 m).mpr (by rw [he])⟩ h
  · intro s
    unfold Structure.enc
    split
    · rename_i h
      constructor
      · intro he
        have hp : s.path = p := by simpa using he
        subst hp
        exact ⟨h.1, rfl, h.2⟩
      · rintro ⟨_, he, _⟩; rw [he]
    · rename_i h
      constructor
      · intro he; cases he
      · rintro ⟨hp, he, h2⟩
        exact absurd ⟨by rw [he]; exact hp, h2⟩ h
  · intro m
    unfold Stats.enc
    split
    · rename_i h
      have := (e4 m).mp h.2
      constructor
      · intro he
        have hp : m.path = p := by simpa using he
        subst hp
        exact ⟨h.1, this⟩
      · rintro ⟨_, he⟩; rw [he]
    · rename_i h
      constructor
      · intro he; cases he
      · rintro ⟨hp, he⟩
        exact absurd ⟨by rw [he]; exact hp, (e4 m).mpr (by rw [he])⟩ h
  · intro m
    unfold Transform.enc
    split
    · rename_i h
      have := (e5 m).mp h.2
      constructor
      · intro he
        have hp : m.path = p := by simpa using he
        subst hp
        exact ⟨h.1, this⟩
      · rintro ⟨_, he⟩; rw [he]
    · rename_i h
      constructor
      · intro he; cases he
      · rintro ⟨hp, he⟩
        exact absurd ⟨by rw [he]; exact hp, (e5 m).mpr (by rw [he])⟩ h
  · intro m
    unfold Readme.enc
    split
    · rename_i h
      have := (e6 m).mp h.2
      constructor
      · intro he
        have hp : m.path = p := by simpa using he
        subst hp
        exact ⟨h.1, this⟩
      · rintro ⟨_, he⟩; rw [he]
    · rename_i h
      constructor
      · intro he; cases he
      · rintro ⟨hp, he⟩
        exact absurd ⟨by rw [he]; exact hp, (e6 m).mpr (by rw [he])⟩ h
  · intro m
    unfold Viz.enc
    split
    · rename_i h
      have := (e7 m).mp h.2
      constructor
      · intro he
        have hp : m.path = p := by simpa using he
        subst hp
        exact ⟨h.1, this⟩
      · rintro ⟨_, he⟩; rw [he]
    · rename_i h
      constructor
      · intro he; cases he
      · rintro ⟨hp, he⟩
        exact absurd ⟨by rw [he]; exact hp, (e7 m).mpr (by rw [he])⟩ h
  · intro d
    unfold Dataset.enc
    split
    · rename_i h
      have := (e8 d).mp h.2
      constructor
      · intro he
        have hp : d.path = p := by simpa using he
        subst hp
        exact ⟨h.1, this⟩
      · rintro ⟨_, he⟩; rw [he]
    · rename_i h
      constructor
      · intro he; cases ht : encComp Commit.enc d.commit <;> simp [ht] at he
      · rintro ⟨hp, he⟩
        exact absurd ⟨by rw [he]; exact hp, (e8 d).mpr (by rw [he])⟩ h

/-- A string is read as the component that has this path and nothing else. -/
theorem C77_reference_read (p : Bytes) :
    Commit.dec (.str p) = .ok { path := p } ∧ Meta.dec (.str p) = .ok { path := p } ∧ Structure.dec (.str p) = .ok { path := p } ∧
    Stats.dec (.str p) = .ok { path := p } ∧ Transform.dec (.str p) = .ok { path := p } ∧ Readme.dec (.str p) = .ok { path := p } ∧
    Viz.dec (.str p) = .ok { path := p } ∧ Dataset.dec (.str p) = .ok { path := p } := ⟨rfl, rfl, rfl, rfl, rfl, rfl, rfl, rfl⟩

/-- What is not written as a bare path is read back with the kind it had, or else with the kind of its component; a meta always with
the kind of metas. -/
theorem C77_kinds :
    (∀ c : Commit, c.timestamp.Real → ¬ (c.path ≠ [] ∧ c.isEmpty = true) →
      ∃ v c', c.enc = some v ∧ Commit.dec v = .ok c' ∧ c'.qri = if c.qri = [] then b!"cm:0" else c.qri) ∧
    (∀ m : Meta, m.Json → ¬ (m.path ≠ [] ∧ m.isEmpty = true) → ∃ m', Meta.dec m.enc = .ok m' ∧ m'.qri = b!"md:0") ∧
    (∀ s : Structure, s.Json → ¬ (s.path ≠ [] ∧ s.encoding = [] ∧ s.schema = none) →
      ∃ s', Structure.dec s.enc = .ok s' ∧ s'.qri = if s.qri = [] then b!"st:0" else s.qri) ∧
    (∀ s : Stats, s.Json → ¬ (s.path ≠ [] ∧ s.isEmpty = true) → ∃ s', Stats.dec s.enc = .ok s' ∧ s'.qri = if s.qri = [] then b!"sa:0" else s.qri) ∧
    (∀ q : Transform, q.Json → ¬ (q.path ≠ [] ∧ q.isEmpty = true) →
      ∃ q', Transform.dec q.enc = .ok q' ∧ q'.qri = if q.qri = [] then b!"tf:0" else q.qri) ∧
    (∀ r : Readme, ¬ (r.path ≠ [] ∧ r.isEmpty = true) → ∃ r', Readme.dec r.enc = .ok r' ∧ r'.qri = if r.qri = [] then b!"rm:0" else r.qri) ∧
    (∀ r : Viz, ¬ (r.path ≠ [] ∧ r.isEmpty = true) → ∃ r', Viz.dec r.enc = .ok r' ∧ r'.qri = if r.qri = [] then b!"vz:0" else r.qri) ∧
    (∀ d : Dataset, d.Json → ¬ (d.path ≠ [] ∧ d.isEmpty = true) →
      ∃ v d', d.enc = some v ∧ Dataset.dec v = .ok d' ∧ d'.qri = if d.qri = [] then b!"ds:0" else d.qri) := by
  refine ⟨?_, ?_, ?_, ?_, ?_, ?_, ?_, ?_⟩
  · intro c h hr
    obtain ⟨v, h1, h2⟩ := C06_commit_round_trip c h
    exact ⟨v, _, h1, h2, by unfold Commit.kept; rw [if_neg hr]; rfl⟩
  · intro m h hr
    exact ⟨_, C07_meta_round_trip m h, by unfold Meta.kept; rw [if_neg hr]; rfl⟩
  · intro m h hr
    exact ⟨_, C06_structure_round_trip m h, by unfold Structure.kept; rw [if_neg hr]; rfl⟩
  · intro m h hr
    exact ⟨_, C06_stats_round_trip m h, by unfold Stats.kept; rw [if_neg hr]; rfl⟩
  · intro m h hr
    exact ⟨_, C06_transform_round_trip m h, by unfold Transform.kept; rw [if_neg hr]; rfl⟩
  · intro m hr
    exact ⟨_, C06_readme_round_trip m, by unfold Readme.kept; rw [if_neg hr]; rfl⟩
  · intro m hr
    exact ⟨_, C06_viz_round_trip m, by unfold Viz.kept; rw [if_neg hr]; rfl⟩
  · intro d h hr
    obtain ⟨v, h1, h2⟩ := C06_dataset_round_trip d h
    exact ⟨v, _, h1, h2, by unfold Dataset.kept; rw [if_neg hr]; rfl⟩

example : Commit.isEmpty { path := b!"/a", qri := b!"cm:0" } = true ∧ Commit.isEmpty { runID := b!"r" } = false := by decide +kernel
/-- a meta whose only content is an entry of its own counts as empty and is written as its path -/
example : Meta.isEmpty { arbitrary := some [(b!"a", .int 1)] } = true ∧
    Meta.enc { path := b!"/m", arbitrary := some [(b!"a", .int 1)] } = .str b!"/m" := by decide +kernel
example : Dataset.enc { path := b!"/d", numVersions := 3 } = some (.str b!"/d") := by decide +kernel
example : (Commit.enc { path := b!"/c", runID := b!"r" }).isSome = true ∧ Commit.enc { path := b!"/c", runID := b!"r" } ≠ some (.str b!"/c") := by decide +kernel

end Verif.Doc
