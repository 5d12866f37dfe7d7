import Verif.Lemmas.Sign
import Verif.Lemmas.Map
/-
C05: dropping transient and derived values; C08: PathMap.
-/
namespace Verif.Doc

/-! ### C05 -/

/-- A reset: `f` forgets exactly what `keep` does not show.  `reset` says the forgotten part is the
zero value's, `frame` that the kept part is untouched, `exact` that nothing else is retained. -/
structure ResetsAllBut {α β : Type} (f : α → α) (keep : α → β) (zero : α → Prop) : Prop where
  reset : ∀ x, zero (f x)
  frame : ∀ x, keep (f x) = keep x
  exact_ : ∀ x y, f x = f y ↔ keep x = keep y

theorem ResetsAllBut.idem {α β : Type} {f : α → α} {keep : α → β} {zero : α → Prop} (h : ResetsAllBut f keep zero) (x : α) :
    f (f x) = f x := (h.exact_ _ _).mpr (h.frame x)

theorem C05_commit_transient : ResetsAllBut Commit.dropTransient
    (fun c => (c.author, c.message, c.qri, c.signature, c.timestamp, c.title, c.runID)) (fun c => c.path = []) where
  reset _ := rfl
  frame _ := rfl
  exact_ x y := by cases x; cases y; simp [Commit.dropTransient]

theorem C05_commit_derived : ResetsAllBut Commit.dropDerived
    (fun c => (c.author, c.message, c.signature, c.timestamp, c.title, c.runID)) (fun c => c.path = [] ∧ c.qri = []) where
  reset _ := ⟨rfl, rfl⟩
  frame _ := rfl
  exact_ x y := by cases x; cases y; simp [Commit.dropDerived]

/-- everything in a meta except path and kind -/
def Meta.content (m : Meta) : Meta := { m with path := [], qri := [] }

theorem C05_meta_transient : ResetsAllBut Meta.dropTransient (fun m => (m.content, m.qri)) (fun m => m.path = []) where
  reset _ := rfl
  frame _ := rfl
  exact_ x y := by
    cases x; cases y; simp only [Meta.dropTransient, Meta.content, Meta.mk.injEq, Prod.mk.injEq]
    exact ⟨fun h => by simp_all, fun h => by simp_all⟩

theorem C05_meta_derived : ResetsAllBut Meta.dropDerived
    (fun m => ((m.arbitrary, m.accessURL, m.accrualPeriodicity, m.citations, m.contributors, m.description), (m.downloadURL, m.homeURL,
      m.identifier, m.keywords, m.language, m.license), (m.readmeURL, m.title, m.theme, m.version)))
    (fun m => m.path = [] ∧ m.qri = []) where
  reset _ := ⟨rfl, rfl⟩
  frame _ := rfl
  exact_ x y := by
    cases x; cases y; simp only [Meta.dropDerived, Meta.mk.injEq, Prod.mk.injEq]
    exact ⟨fun h => by simp_all, fun h => by simp_all⟩

theorem C05_structure_transient : ResetsAllBut Structure.dropTransient
    (fun s => ((s.checksum, s.compression, s.depth, s.encoding, s.errCount, s.entries), (s.format, s.formatConfig, s.length, s.qri, s.schema, s.strict)))
    (fun s => s.path = []) where
  reset _ := rfl
  frame _ := rfl
  exact_ x y := by
    cases x; cases y; simp only [Structure.dropTransient, Structure.mk.injEq, Prod.mk.injEq]
    exact ⟨fun h => by simp_all, fun h => by simp_all⟩

theorem C05_structure_derived : ResetsAllBut Structure.dropDerived
    (fun s => (s.compression, s.encoding, s.format, s.formatConfig, s.schema, s.strict))
    (fun s => s.checksum = [] ∧ s.depth = 0 ∧ s.errCount = 0 ∧ s.entries = 0 ∧ s.length = 0 ∧ s.path = [] ∧ s.qri = []) where
  reset _ := ⟨rfl, rfl, rfl, rfl, rfl, rfl, rfl⟩
  frame _ := rfl
  exact_ x y := by
    cases x; cases y; simp only [Structure.dropDerived, Structure.mk.injEq, Prod.mk.injEq]
    exact ⟨fun h => by simp_all, fun h => by simp_all⟩

theorem C05_stats_derived : ResetsAllBut Stats.dropDerived (fun s => s.stats) (fun s => s.path = [] ∧ s.qri = []) where
  reset _ := ⟨rfl, rfl⟩
  frame _ := rfl
  exact_ x y := by cases x; cases y; simp [Stats.dropDerived]

theorem C05_transform_transient : ResetsAllBut Transform.dropTransient
    (fun t => ((t.config, t.qri, t.resources, t.scriptFile), (t.scriptPath, t.steps, t.syntaxName, t.syntaxVersion, t.syntaxes)))
    (fun t => t.path = [] ∧ t.secrets = none ∧ t.text = []) where
  reset _ := ⟨rfl, rfl, rfl⟩
  frame _ := rfl
  exact_ x y := by
    cases x; cases y; simp only [Transform.dropTransient, Transform.mk.injEq, Prod.mk.injEq]
    exact ⟨fun h => by simp_all, fun h => by simp_all⟩

theorem C05_transform_derived : ResetsAllBut Transform.dropDerived
    (fun t => ((t.config, t.resources, t.scriptFile, t.scriptPath, t.text), (t.secrets, t.steps, t.syntaxName, t.syntaxVersion, t.syntaxes)))
    (fun t => t.path = [] ∧ t.qri = []) where
  reset _ := ⟨rfl, rfl⟩
  frame _ := rfl
  exact_ x y := by
    cases x; cases y; simp only [Transform.dropDerived, Transform.mk.injEq, Prod.mk.injEq]
    exact ⟨fun h => by simp_all, fun h => by simp_all⟩

theorem C05_readme_transient : ResetsAllBut Readme.dropTransient
    (fun r => (r.format, r.qri, r.scriptFile, r.renderedFile, r.scriptPath, r.renderedPath)) (fun r => r.path = [] ∧ r.text = []) where
  reset _ := ⟨rfl, rfl⟩
  frame _ := rfl
  exact_ x y := by cases x; cases y; simp [Readme.dropTransient]

theorem C05_readme_derived : ResetsAllBut Readme.dropDerived
    (fun r => (r.format, r.scriptFile, r.renderedFile, r.scriptPath, r.text, r.renderedPath)) (fun r => r.path = [] ∧ r.qri = []) where
  reset _ := ⟨rfl, rfl⟩
  frame _ := rfl
  exact_ x y := by cases x; cases y; simp [Readme.dropDerived]

theorem C05_viz_transient : ResetsAllBut Viz.dropTransient
    (fun r => (r.format, r.qri, r.scriptFile, r.renderedFile, r.scriptPath, r.renderedPath)) (fun r => r.path = [] ∧ r.text = []) where
  reset _ := ⟨rfl, rfl⟩
  frame _ := rfl
  exact_ x y := by cases x; cases y; simp [Viz.dropTransient]

theorem C05_viz_derived : ResetsAllBut Viz.dropDerived
    (fun r => (r.format, r.scriptFile, r.renderedFile, r.scriptPath, r.text, r.renderedPath)) (fun r => r.path = [] ∧ r.qri = []) where
  reset _ := ⟨rfl, rfl⟩
  frame _ := rfl
  exact_ x y := by cases x; cases y; simp [Viz.dropDerived]

/-- **C05 (dataset, transient)**: components, the body path and the open body file stay -/
theorem C05_dataset_transient : ResetsAllBut Dataset.dropTransient
    (fun d => ((d.bodyFile, d.bodyPath, d.id, d.previousPath, d.qri), (d.commit, d.meta_, d.readme, d.structure_, d.stats, d.transform, d.viz)))
    (fun d => d.body = .null ∧ d.bodyBytes = none ∧ d.name = [] ∧ d.peername = [] ∧ d.path = [] ∧ d.profileID = [] ∧ d.numVersions = 0) where
  reset _ := ⟨rfl, rfl, rfl, rfl, rfl, rfl, rfl⟩
  frame _ := rfl
  exact_ x y := by
    cases x; cases y; simp only [Dataset.dropTransient, Dataset.mk.injEq, Prod.mk.injEq]
    exact ⟨fun h => by simp_all, fun h => by simp_all⟩

/-- **C05 (dataset, derived)**: two datasets become equal exactly when they agree on the plain
fields other than path and kind, have the same components present, and those agree after their own
`DropDerivedValues`. -/
theorem C05_dataset_derived : ResetsAllBut Dataset.dropDerived
    (fun d => ((d.bodyFile, d.body, d.bodyBytes, d.bodyPath, d.id), (d.name, d.peername, d.previousPath, d.profileID, d.numVersions),
      (d.commit.map Commit.dropDerived, d.meta_.map Meta.dropDerived, d.readme.map Readme.dropDerived, d.structure_.map Structure.dropDerived),
      (d.stats.map Stats.dropDerived, d.transform.map Transform.dropDerived, d.viz.map Viz.dropDerived)))
    (fun d => d.path = [] ∧ d.qri = [] ∧ (∀ c ∈ d.commit, c.path = [] ∧ c.qri = []) ∧ (∀ c ∈ d.meta_, c.path = [] ∧ c.qri = []) ∧
      (∀ c ∈ d.readme, c.path = [] ∧ c.qri = []) ∧
      (∀ s ∈ d.structure_, s.checksum = [] ∧ s.depth = 0 ∧ s.errCount = 0 ∧ s.entries = 0 ∧ s.length = 0 ∧ s.path = [] ∧ s.qri = []) ∧
      (∀ c ∈ d.stats, c.path = [] ∧ c.qri = []) ∧ (∀ c ∈ d.transform, c.path = [] ∧ c.qri = []) ∧ (∀ c ∈ d.viz, c.path = [] ∧ c.qri = [])) where
  reset d := by
    refine ⟨rfl, rfl, ?_, ?_, ?_, ?_, ?_, ?_, ?_⟩ <;>
    · intro c hc
      simp only [Dataset.dropDerived, Option.mem_def, Option.map_eq_some_iff] at hc
      obtain ⟨x, _, rfl⟩ := hc
      first
        | exact ⟨rfl, rfl⟩
        | exact ⟨rfl, rfl, rfl, rfl, rfl, rfl, rfl⟩
  frame d := by
    cases d
    simp only [Dataset.dropDerived, Option.map_map, Prod.mk.injEq, true_and]
    refine ⟨⟨?_, ?_, ?_, ?_⟩, ?_, ?_, ?_⟩ <;> rfl
  exact_ x y := by
    cases x; cases y; simp only [Dataset.dropDerived, Dataset.mk.injEq, Prod.mk.injEq]
    exact ⟨fun h => by simp_all, fun h => by simp_all⟩

/-- **C05 (commute)** for the dataset and every component that has both operations -/
theorem C05_commute :
    (∀ d : Dataset, d.dropTransient.dropDerived = d.dropDerived.dropTransient) ∧
    (∀ c : Commit, c.dropTransient.dropDerived = c.dropDerived.dropTransient) ∧
    (∀ c : Meta, c.dropTransient.dropDerived = c.dropDerived.dropTransient) ∧
    (∀ c : Structure, c.dropTransient.dropDerived = c.dropDerived.dropTransient) ∧
    (∀ c : Transform, c.dropTransient.dropDerived = c.dropDerived.dropTransient) ∧
    (∀ c : Readme, c.dropTransient.dropDerived = c.dropDerived.dropTransient) ∧
    (∀ c : Viz, c.dropTransient.dropDerived = c.dropDerived.dropTransient) :=
  ⟨fun _ => rfl, fun _ => rfl, fun _ => rfl, fun _ => rfl, fun _ => rfl, fun _ => rfl, fun _ => rfl⟩

/-- **C05 (idempotent)** -/
theorem C05_idempotent (d : Dataset) :
    d.dropTransient.dropTransient = d.dropTransient ∧ d.dropDerived.dropDerived = d.dropDerived :=
  ⟨C05_dataset_transient.idem d, C05_dataset_derived.idem d⟩

/-- Emptiness is not affected by dropping derived values (except for a structure), nor by dropping
transient values (except for a transform, readme or viz, which lose their text). -/
theorem C05_emptiness_kept :
    (∀ c : Commit, c.dropDerived.isEmpty = c.isEmpty ∧ c.dropTransient.isEmpty = c.isEmpty) ∧
    (∀ c : Meta, c.dropDerived.isEmpty = c.isEmpty ∧ c.dropTransient.isEmpty = c.isEmpty) ∧
    (∀ c : Stats, c.dropDerived.isEmpty = c.isEmpty) ∧ (∀ c : Transform, c.dropDerived.isEmpty = c.isEmpty) ∧
    (∀ c : Readme, c.dropDerived.isEmpty = c.isEmpty) ∧ (∀ c : Viz, c.dropDerived.isEmpty = c.isEmpty) ∧
    (∀ c : Structure, c.dropTransient.isEmpty = c.isEmpty) ∧
    (∃ c : Structure, c.isEmpty = false ∧ c.dropDerived.isEmpty = true) ∧
    (∃ c : Transform, c.isEmpty = false ∧ c.dropTransient.isEmpty = true) ∧
    (∃ c : Readme, c.isEmpty = false ∧ c.dropTransient.isEmpty = true) :=
  ⟨fun _ => ⟨rfl, rfl⟩, fun _ => ⟨rfl, rfl⟩, fun _ => rfl, fun _ => rfl, fun _ => rfl, fun _ => rfl, fun _ => rfl,
    ⟨{ checksum := b!"Q" }, by decide +kernel⟩, ⟨{ text := b!"Q" }, by decide +kernel⟩, ⟨{ text := b!"Q" }, by decide +kernel⟩⟩

example : (Dataset.dropDerived { path := b!"/p", name := b!"n", structure_ := some { format := b!"csv", entries := 5, path := b!"/s" } }) =
    { name := b!"n", structure_ := some { format := b!"csv" } } := by decide +kernel
example : (Dataset.dropTransient { path := b!"/p", name := b!"n", bodyPath := b!"/b", commit := some { path := b!"/c" } }) =
    { bodyPath := b!"/b", commit := some { path := b!"/c" } } := by decide +kernel

/-! ### C08 -/

/-- what a key of the path map stands for: `none` when the component is absent -/
def Dataset.pathOf (d : Dataset) (k : Bytes) : Option Bytes :=
  if k = b!"body" then (if d.bodyPath = [] then none else some d.bodyPath)
  else if k = b!"dataset" then (if d.path = [] then none else some d.path)
  else if k = b!"commit" then d.commit.map (·.path)
  else if k = b!"meta" then d.meta_.map (·.path)
  else if k = b!"readme" then d.readme.map (·.path)
  else if k = b!"structure" then d.structure_.map (·.path)
  else if k = b!"transform" then d.transform.map (·.path)
  else if k = b!"viz" then d.viz.map (·.path)
  else if k = b!"stats" then d.stats.map (·.path)
  else none

theorem mapGet_putPath (ig : List Bytes) (name : Bytes) (p : Option Bytes) (m : List (Bytes × Bytes)) (k : Bytes) :
    mapGet (putPath ig name p m) k = if k = name ∧ name ∉ ig ∧ p ≠ none then p else mapGet m k := by
  unfold putPath
  cases p with
  | none => simp
  | some p =>
    by_cases hi : name ∈ ig
    · simp [hi]
    · by_cases hk : k = name
      · subst hk; simp [hi, mapGet_mapSet_self]
      · simp [hi, hk, mapGet_mapSet_ne _ _ hk]

/-- **C08**. A key of the path map is present exactly when it is not ignored and its component is
present, with that component's own path; no other key occurs. -/
theorem C08_pathMap (d : Dataset) (ignore : List Bytes) (k : Bytes) :
    mapGet (d.pathMap ignore) k = if k ∈ ignore then none else d.pathOf k := by
  have aux : ∀ (name : Bytes) (p q : Option Bytes), (if k = name ∧ name ∉ ignore ∧ p ≠ none then p else q) =
      if k = name then (if k ∈ ignore then q else p.or q) else q := by
    intro name p q
    by_cases hk : k = name
    · subst hk
      by_cases hi : k ∈ ignore <;> cases p <;> simp [hi]
    · simp [hk]
  simp only [Dataset.pathMap, mapGet_putPath, aux, mapGet, nonEmpty, Dataset.pathOf]
  by_cases hi : k ∈ ignore
  · simp [hi]
  · simp only [hi, if_false, Option.or_none]
    have sep : ∀ a b : Bytes, a ≠ b → k = a → k ≠ b := fun a b h e => e ▸ h
    by_cases h1 : k = b!"stats"
    · subst h1; simp
    by_cases h2 : k = b!"viz"
    · subst h2; simp
    by_cases h3 : k = b!"transform"
    · subst h3; simp
    by_cases h4 : k = b!"structure"
    · subst h4; simp
    by_cases h5 : k = b!"readme"
    · subst h5; simp
    by_cases h6 : k = b!"dataset"
    · subst h6; simp
    by_cases h7 : k = b!"meta"
    · subst h7; simp
    by_cases h8 : k = b!"commit"
    · subst h8; simp
    by_cases h9 : k = b!"body"
    · subst h9; simp
    simp only [h1, h2, h3, h4, h5, h6, h7, h8, h9, if_false]

/-- the path map is a map: each key once -/
theorem C08_pathMap_keys (d : Dataset) (ignore : List Bytes) : KeysSorted (d.pathMap ignore) := by
  have h : ∀ name p (m : List (Bytes × Bytes)), KeysSorted m → KeysSorted (putPath ignore name p m) := by
    intro name p m hm
    unfold putPath
    split
    · exact hm
    · split
      · exact hm
      · exact keysSorted_mapSet _ _ hm
  unfold Dataset.pathMap
  exact h _ _ _ (h _ _ _ (h _ _ _ (h _ _ _ (h _ _ _ (h _ _ _ (h _ _ _ (h _ _ _ (h _ _ _ (by simp [KeysSorted])))))))))

/-- after `DropDerivedValues` every component is mapped to the empty path -/
theorem C08_pathMap_dropDerived (d : Dataset) (k p : Bytes) (hk : k ≠ b!"body") (h : mapGet (d.dropDerived.pathMap []) k = some p) : p = [] := by
  rw [C08_pathMap] at h
  simp only [List.not_mem_nil, if_false, Dataset.pathOf, hk, Dataset.dropDerived, Option.map_map] at h
  by_cases h1 : k = b!"dataset"
  · simp [h1] at h
  have m : ∀ {α : Type} (o : Option α) (f : α → Bytes), (∀ x, f x = []) → o.map f = some p → p = [] := by
    intro α o f hf e
    cases o with
    | none => cases e
    | some x => simp only [Option.map_some, Option.some.injEq, hf] at e; exact e.symm
  simp only [h1, if_false] at h
  split at h
  · exact m _ _ (fun _ => rfl) h
  split at h
  · exact m _ _ (fun _ => rfl) h
  split at h
  · exact m _ _ (fun _ => rfl) h
  split at h
  · exact m _ _ (fun _ => rfl) h
  split at h
  · exact m _ _ (fun _ => rfl) h
  split at h
  · exact m _ _ (fun _ => rfl) h
  split at h
  · exact m _ _ (fun _ => rfl) h
  · cases h

example : (Dataset.pathMap { path := b!"/d", bodyPath := b!"/b", commit := some { path := b!"/c" }, viz := some {} } [b!"body"]) =
    [(b!"commit", b!"/c"), (b!"dataset", b!"/d"), (b!"viz", [])] := by decide +kernel

end Verif.Doc
