import Verif.Lemmas.DocJsonRt
/-
C04, C06, C07: what a document becomes after MarshalJSON and UnmarshalJSON.
-/
namespace Verif.Doc

/-! ## C04 – secrets -/

/-- The contents of the secrets never show. -/
theorem C04_transform_secrets_do_not_show (q : Transform) (s₁ s₂ : List (Bytes × Bytes)) :
    { q with secrets := some s₁ : Transform }.enc = { q with secrets := some s₂ : Transform }.enc := rfl

/-- There is no member that could be read as the secrets field, whatever its letter case. -/
theorem C04_transform_has_no_secrets_member (q : Transform) :
    ∀ m, q.enc = .obj m → ∀ kv ∈ m, foldName kv.1 ≠ b!"secrets" := by
  intro m h kv hkv e
  unfold Transform.enc at h
  split at h
  · cases h
  · simp only [Transform.encObj, Val.obj.injEq] at h
    subst h
    have g := getAll_at q.fields [b!"config", b!"path", b!"qri", b!"resources", b!"scriptPath", b!"text", b!"secrets", b!"steps",
      b!"syntax", b!"syntaxVersion", b!"syntaxes"] rfl b!"secrets" none (by decide +kernel) rfl
    unfold getAll at g
    have hm : kv.2 ∈ ((encFields q.fields).filter fun x => foldName x.1 = foldName b!"secrets").map (·.2) := by
      refine List.mem_map.mpr ⟨kv, List.mem_filter.mpr ⟨hkv, ?_⟩, rfl⟩
      rw [e]; decide +kernel
    rw [g] at hm
    cases hm

/-- The same for a whole dataset. -/
theorem C04_dataset_secrets_do_not_show (d : Dataset) (q : Transform) (s₁ s₂ : List (Bytes × Bytes)) :
    { d with transform := some { q with secrets := some s₁ } : Dataset }.enc =
      { d with transform := some { q with secrets := some s₂ } : Dataset }.enc := by
  unfold Dataset.enc
  have : ∀ s, ({ d with transform := some { q with secrets := some s } : Dataset }.isEmpty) = false := by
    intro s; simp [Dataset.isEmpty]
  simp only [this]
  rfl

/-- Whether there are secrets at all shows only when the transform is otherwise empty and has a path. -/
theorem C04_presence_shows_only_for_references (q : Transform) (s : List (Bytes × Bytes))
    (h : ¬ (q.path ≠ [] ∧ { q with secrets := none : Transform }.isEmpty)) :
    { q with secrets := some s : Transform }.enc = { q with secrets := none : Transform }.enc := by
  unfold Transform.enc
  have h1 : ({ q with secrets := some s : Transform }.isEmpty) = false := by simp [Transform.isEmpty]
  rw [if_neg (by rw [h1]; simp), if_neg h]
  rfl

/-- … and there it does show. -/
theorem C04_presence_can_show : ∃ q : Transform, { q with secrets := some [] : Transform }.enc ≠ { q with secrets := none : Transform }.enc :=
  ⟨{ path := b!"/p" }, by decide +kernel⟩

example : Transform.enc { text := b!"x", secrets := some [(b!"key", b!"hunter2")] } =
    .obj [(b!"qri", .str b!"tf:0"), (b!"text", .str b!"x")] := by decide +kernel

/-! ## C06 – what survives a round trip -/

/-- commit: the kind is filled in; an otherwise empty commit with a path is only its path -/
def Commit.kept (c : Commit) : Commit :=
  if c.path ≠ [] ∧ c.isEmpty then { path := c.path } else { c with qri := kindOr c.qri kindCommit }

def Stats.kept (s : Stats) : Stats :=
  if s.path ≠ [] ∧ s.isEmpty then { path := s.path } else { s with qri := kindOr s.qri kindStats }

/-- structure: with a path, no encoding and no schema only the path is left, whatever else is set -/
def Structure.kept (s : Structure) : Structure :=
  if s.path ≠ [] ∧ s.encoding = [] ∧ s.schema = none then { path := s.path }
  else { s with qri := kindOr s.qri kindStructure, formatConfig := normMap s.formatConfig, schema := normMap s.schema }

/-- transform: secrets and the open script file are lost, empty maps and lists become absent -/
def Transform.kept (q : Transform) : Transform :=
  if q.path ≠ [] ∧ q.isEmpty then { path := q.path }
  else { q with qri := kindOr q.qri kindTransform, config := normMap q.config, resources := normMap q.resources, secrets := none,
                steps := normList q.steps, syntaxes := normMap q.syntaxes, scriptFile := none }

/-- readme: the path is lost whenever anything else is set; open files are lost -/
def Readme.kept (r : Readme) : Readme :=
  if r.path ≠ [] ∧ r.isEmpty then { path := r.path }
  else { r with qri := kindOr r.qri kindReadme, path := [], scriptFile := none, renderedFile := none }

def Viz.kept (r : Viz) : Viz :=
  if r.path ≠ [] ∧ r.isEmpty then { path := r.path }
  else { r with qri := kindOr r.qri kindViz, path := [], scriptFile := none, renderedFile := none }

/-- meta: kind set; arbitrary entries as in `Meta.rest` -/
def Meta.kept (m : Meta) : Meta :=
  if m.path ≠ [] ∧ m.isEmpty then { path := m.path }
  else { m with qri := kindMeta, arbitrary := if m.rest = [] then none else some m.rest }

def Dataset.kept (d : Dataset) : Dataset :=
  if d.path ≠ [] ∧ d.isEmpty then { path := d.path }
  else { d with bodyFile := none, bodyBytes := normList d.bodyBytes, qri := kindOr d.qri kindDataset,
                commit := d.commit.map Commit.kept, meta_ := d.meta_.map Meta.kept, readme := d.readme.map Readme.kept,
                structure_ := d.structure_.map Structure.kept, stats := d.stats.map Stats.kept,
                transform := d.transform.map Transform.kept, viz := d.viz.map Viz.kept }

/-! values JSON can carry -/
def Structure.Json (s : Structure) : Prop :=
  IsInt64 s.depth ∧ IsInt64 s.errCount ∧ IsInt64 s.entries ∧ IsInt64 s.length ∧
  isJsonM (s.formatConfig.getD []) = true ∧ isJsonM (s.schema.getD []) = true
def Stats.Json (s : Stats) : Prop := isJson s.stats = true
def Transform.Json (q : Transform) : Prop :=
  isJsonM (q.config.getD []) = true ∧ ∀ x ∈ q.steps.getD [], ∀ s, x = some s → isJson s.script = true
/-- no arbitrary key reads as a field name -/
def Meta.Json (m : Meta) : Prop :=
  KeysSorted (m.arbitrary.getD []) ∧ isJsonM (m.arbitrary.getD []) = true ∧
  ∀ x ∈ m.arbitrary.getD [], ∀ n ∈ metaNames, foldName x.1 ≠ foldName n

structure Dataset.Json (d : Dataset) : Prop where
  body : isJson d.body = true
  numVersions : IsInt64 d.numVersions
  commit : ∀ c, d.commit = some c → c.timestamp.Real
  meta_ : ∀ m, d.meta_ = some m → m.Json
  structure_ : ∀ s, d.structure_ = some s → s.Json
  stats : ∀ s, d.stats = some s → s.Json
  transform : ∀ q, d.transform = some q → q.Json

theorem kindOr_idem (q k : Bytes) (hk : k ≠ []) : kindOr q k ≠ [] := by
  unfold kindOr; split
  · exact hk
  · assumption

theorem C06_commit_round_trip (c : Commit) (h : c.timestamp.Real) : ∃ v, c.enc = some v ∧ Commit.dec v = .ok c.kept := by
  unfold Commit.enc Commit.kept
  split
  · exact ⟨_, rfl, rfl⟩
  · have ht : encTime c.timestamp = some (timeText c.timestamp) := by
      unfold encTime; rw [if_pos ⟨h.1, h.2.1⟩]
    refine ⟨.obj (encFields (c.fields (timeText c.timestamp))), by rw [Commit.encObj, ht]; rfl, ?_⟩
    exact commit_obj_rt c _ (decTime_text _ h)

/-- It cannot be serialized exactly when the object form is needed and the year is outside 0..9999. -/
theorem C06_commit_fails_iff (c : Commit) :
    c.enc = none ↔ ¬ (c.path ≠ [] ∧ c.isEmpty) ∧ ¬ (0 ≤ c.timestamp.year ∧ c.timestamp.year ≤ 9999) := by
  unfold Commit.enc Commit.encObj encTime
  by_cases h : c.path ≠ [] ∧ c.isEmpty = true <;> by_cases h2 : 0 ≤ c.timestamp.year ∧ c.timestamp.year ≤ 9999 <;> simp [h, h2]

theorem C06_stats_round_trip (s : Stats) (h : s.Json) : Stats.dec s.enc = .ok s.kept := by
  unfold Stats.enc Stats.kept
  split
  · rfl
  · exact stats_obj_rt s h

theorem getD_all {α : Type} {P : List α → Prop} {o : Option (List α)} (h : P (o.getD [])) : ∀ l, o = some l → P l := by
  rintro l rfl; exact h

theorem C06_structure_round_trip (s : Structure) (h : s.Json) : Structure.dec s.enc = .ok s.kept := by
  obtain ⟨h1, h2, h3, h4, h5, h6⟩ := h
  unfold Structure.enc Structure.kept
  split
  · rfl
  · exact structure_obj_rt s h1 h2 h3 h4 (getD_all (P := fun l => isJsonM l = true) h5) (getD_all (P := fun l => isJsonM l = true) h6)

theorem C06_transform_round_trip (q : Transform) (h : q.Json) : Transform.dec q.enc = .ok q.kept := by
  unfold Transform.enc Transform.kept
  split
  · rfl
  · exact transform_obj_rt q (getD_all (P := fun l => isJsonM l = true) h.1)
      (getD_all (P := fun l => ∀ x ∈ l, ∀ s : TransformStep, x = some s → isJson s.script = true) h.2)

theorem C06_readme_round_trip (r : Readme) : Readme.dec r.enc = .ok r.kept := by
  unfold Readme.enc Readme.kept
  split
  · rfl
  · exact readme_obj_rt { r with qri := kindOr r.qri kindReadme } (kindOr_idem _ _ (by decide))

theorem C06_viz_round_trip (r : Viz) : Viz.dec r.enc = .ok r.kept := by
  unfold Viz.enc Viz.kept
  split
  · rfl
  · exact viz_obj_rt { r with qri := kindOr r.qri kindViz } (kindOr_idem _ _ (by decide))

/-! ## C07 – meta -/

theorem C07_meta_round_trip (m : Meta) (h : m.Json) : Meta.dec m.enc = .ok m.kept := by
  unfold Meta.enc Meta.kept
  split
  · rfl
  · exact meta_obj_rt m h.1 h.2.2 (rest_json m h.1 h.2.1)

/-- The standard fields: all kept (with the kind set to "md:0") unless the meta is a bare reference. -/
theorem C07_standard_fields_kept (m : Meta) (h : m.Json) (hr : ¬ (m.path ≠ [] ∧ m.isEmpty)) :
    ∃ a, Meta.dec m.enc = .ok { m with qri := b!"md:0", arbitrary := a } := by
  rw [C07_meta_round_trip m h]
  unfold Meta.kept
  rw [if_neg hr]
  exact ⟨_, rfl⟩

/-- The arbitrary entries: kept under their keys, except for five reserved names, with one addition:
the keywords turn up among them. -/
theorem C07_arbitrary_entries (m m' : Meta) (h : m.Json) (hr : ¬ (m.path ≠ [] ∧ m.isEmpty)) (hd : Meta.dec m.enc = .ok m') (k : Bytes) :
    mapGet (m'.arbitrary.getD []) k =
      if k ∈ [b!"data", b!"image", b!"keyword", b!"length", b!"timestamp"] then none
      else if k = b!"keywords" then m.keywords.map fun l => .arr (l.map .str)
      else mapGet (m.arbitrary.getD []) k := by
  rw [C07_meta_round_trip m h] at hd
  unfold Meta.kept at hd
  rw [if_neg hr] at hd
  simp only [Except.ok.injEq] at hd
  have ha : m'.arbitrary.getD [] = m.rest := by
    rw [← hd]
    generalize m.rest = r
    cases r <;> rfl
  -- no arbitrary key is a field name
  have hno : ∀ n ∈ metaNames, mapGet (m.arbitrary.getD []) n = none := by
    intro n hn
    rw [map_get_none]
    intro x hx e
    exact h.2.2 x hx n hn (by rw [e])
  rw [ha, mapGet_rest m h.1]
  by_cases h5 : k ∈ [b!"data", b!"image", b!"keyword", b!"length", b!"timestamp"]
  · have : k ∈ metaReserved := by
      have : ∀ x ∈ [b!"data", b!"image", b!"keyword", b!"length", b!"timestamp"], x ∈ metaReserved := by decide +kernel
      exact this k h5
    rw [if_pos this, if_pos h5]
  · rw [if_neg h5]
    by_cases hk : k = b!"keywords"
    · subst hk
      have : ¬ (b!"keywords") ∈ metaReserved := by decide +kernel
      rw [if_neg this, if_pos rfl, if_pos rfl, hno _ (by decide +kernel)]
      cases m.keywords <;> rfl
    · rw [if_neg hk, if_neg hk]
      split
      · rename_i hres
        have : ∀ x ∈ metaReserved, x ∈ metaNames ∨ x ∈ [b!"data", b!"image", b!"keyword", b!"length", b!"timestamp"] := by decide +kernel
        rcases this k hres with h' | h'
        · rw [hno k h']
        · exact absurd h' h5
      · rfl

/-- The round trip is not the identity on metas with a kind: keywords gain an arbitrary entry, … -/
theorem C07_keywords_gain_an_entry :
    Meta.dec (Meta.enc { qri := b!"md:0", keywords := some [b!"a"] }) =
      .ok { qri := b!"md:0", keywords := some [b!"a"], arbitrary := some [(b!"keywords", .arr [.str b!"a"])] } := by decide +kernel
/-- … reserved names are lost, … -/
theorem C07_reserved_entries_lost :
    Meta.dec (Meta.enc { qri := b!"md:0", title := b!"t", arbitrary := some [(b!"data", .str b!"x"), (b!"image", .str b!"y")] }) =
      .ok { qri := b!"md:0", title := b!"t" } := by decide +kernel
/-- … all arbitrary entries beside a path are lost, … -/
theorem C07_entries_beside_path_lost :
    Meta.dec (Meta.enc { path := b!"/p", arbitrary := some [(b!"foo", .str b!"x")] }) = .ok { path := b!"/p" } := by decide +kernel
/-- … and an arbitrary key that differs from a field name only in case overrides the field or makes
the document unreadable. -/
theorem C07_case_variant_unreadable :
    Meta.dec (Meta.enc { title := b!"t", arbitrary := some [(b!"Title", .bool true)] }) = .error .mismatch := by decide +kernel
/-- (`title` comes after `TITLE` in the text, so the field wins here; with the field empty it is set from the entry) -/
theorem C07_case_variant_sets_field :
    Meta.dec (Meta.enc { version := b!"1", arbitrary := some [(b!"TITLE", .str b!"x")] }) =
      .ok { qri := b!"md:0", version := b!"1", title := b!"x", arbitrary := some [(b!"TITLE", .str b!"x")] } := by decide +kernel

example : Meta.dec (Meta.enc { qri := b!"md:0", title := b!"t", language := some [b!"en"], license := some { type := b!"MIT" }, citations := some [none, some { name := b!"n" }], arbitrary := some [(b!"foo", .arr [.bool true, .null])] }) =
    .ok { qri := b!"md:0", title := b!"t", language := some [b!"en"], license := some { type := b!"MIT" }, citations := some [none, some { name := b!"n" }], arbitrary := some [(b!"foo", .arr [.bool true, .null])] } := by decide +kernel

/-! ## C06 – the whole dataset -/

theorem decBytes_omit (o : Option Bytes) : decOpt decBytes (omitBytes o).toList = .ok (normList o) := by
  cases o with
  | none => rfl
  | some b =>
    cases b with
    | nil => rfl
    | cons x b => simp [omitBytes, normList, decOpt, decBytes, b64decNL_enc]; rfl

theorem comp_rt {α : Type} (dec : Val → D α) (enc : α → Val) (kept : α → α) (o : Option α) (hn : ∀ x, enc x ≠ .null)
    (h : ∀ x, o = some x → dec (enc x) = .ok (kept x)) : decOpt dec (o.map enc).toList = .ok (o.map kept) :=
  decOpt_map dec enc o (fun x _ => hn x) h

theorem dataset_obj_rt (d : Dataset) (cm : Option Val) (h : d.Json)
    (hc : decOpt Commit.dec cm.toList = .ok (d.commit.map Commit.kept)) :
    Dataset.decObj (encFields (d.fields cm)) =
      .ok { d with bodyFile := none, bodyBytes := normList d.bodyBytes, qri := kindOr d.qri kindDataset,
                   commit := d.commit.map Commit.kept, meta_ := d.meta_.map Meta.kept, readme := d.readme.map Readme.kept,
                   structure_ := d.structure_.map Structure.kept, stats := d.stats.map Stats.kept,
                   transform := d.transform.map Transform.kept, viz := d.viz.map Viz.kept } := by
  have g := getAll_at (d.fields cm) [b!"body", b!"bodyBytes", b!"bodyPath", b!"commit", b!"id", b!"meta", b!"name", b!"path",
    b!"peername", b!"previousPath", b!"profileID", b!"readme", b!"numVersions", b!"qri", b!"structure", b!"stats", b!"transform", b!"viz"] rfl
  have r1 := comp_rt Meta.dec Meta.enc Meta.kept d.meta_
    (by intro x; unfold Meta.enc Meta.encObj; split <;> simp) (fun x hx => C07_meta_round_trip x (h.meta_ x hx))
  have r2 := comp_rt Readme.dec Readme.enc Readme.kept d.readme
    (by intro x; unfold Readme.enc Readme.encObj; split <;> simp) (fun x _ => C06_readme_round_trip x)
  have r3 := comp_rt Structure.dec Structure.enc Structure.kept d.structure_
    (by intro x; unfold Structure.enc Structure.encObj; split <;> simp) (fun x hx => C06_structure_round_trip x (h.structure_ x hx))
  have r4 := comp_rt Stats.dec Stats.enc Stats.kept d.stats
    (by intro x; unfold Stats.enc Stats.encObj; split <;> simp) (fun x hx => C06_stats_round_trip x (h.stats x hx))
  have r5 := comp_rt Transform.dec Transform.enc Transform.kept d.transform
    (by intro x; unfold Transform.enc Transform.encObj; split <;> simp) (fun x hx => C06_transform_round_trip x (h.transform x hx))
  have r6 := comp_rt Viz.dec Viz.enc Viz.kept d.viz
    (by intro x; unfold Viz.enc Viz.encObj; split <;> simp) (fun x _ => C06_viz_round_trip x)
  unfold Dataset.decObj
  rw [g b!"body" (omitVal d.body) (by decide +kernel) rfl,
    g b!"bodyBytes" (omitBytes d.bodyBytes) (by decide +kernel) rfl,
    g b!"bodyPath" (omitStr d.bodyPath) (by decide +kernel) rfl,
    g b!"commit" (cm) (by decide +kernel) rfl,
    g b!"id" (omitStr d.id) (by decide +kernel) rfl,
    g b!"meta" (d.meta_.map Meta.enc) (by decide +kernel) rfl,
    g b!"name" (omitStr d.name) (by decide +kernel) rfl,
    g b!"path" (omitStr d.path) (by decide +kernel) rfl,
    g b!"peername" (omitStr d.peername) (by decide +kernel) rfl,
    g b!"previousPath" (omitStr d.previousPath) (by decide +kernel) rfl,
    g b!"profileID" (omitStr d.profileID) (by decide +kernel) rfl,
    g b!"readme" (d.readme.map Readme.enc) (by decide +kernel) rfl,
    g b!"numVersions" (omitInt d.numVersions) (by decide +kernel) rfl,
    g b!"qri" (some (.str (kindOr d.qri kindDataset))) (by decide +kernel) rfl,
    g b!"structure" (d.structure_.map Structure.enc) (by decide +kernel) rfl,
    g b!"stats" (d.stats.map Stats.enc) (by decide +kernel) rfl,
    g b!"transform" (d.transform.map Transform.enc) (by decide +kernel) rfl,
    g b!"viz" (d.viz.map Viz.enc) (by decide +kernel) rfl]
  simp only [decVal_omit _ h.body, decBytes_omit, decStr_omit, decStr_one, hc, r1, r2, r3, r4, r5, r6, decInt_omit _ h.numVersions, bind_ok, pure_ok]

theorem C06_dataset_round_trip (d : Dataset) (h : d.Json) : ∃ v, d.enc = some v ∧ Dataset.dec v = .ok d.kept := by
  unfold Dataset.enc Dataset.kept
  split
  · exact ⟨_, rfl, rfl⟩
  · cases hc : d.commit with
    | none =>
      refine ⟨_, rfl, ?_⟩
      have := dataset_obj_rt d none h (by rw [hc]; rfl)
      rw [hc] at this
      exact this
    | some c =>
      obtain ⟨v, hv, hd⟩ := C06_commit_round_trip c (h.commit c hc)
      refine ⟨_, by rw [encComp, hv]; rfl, ?_⟩
      have hnull : v ≠ .null := by
        rintro rfl
        unfold Commit.enc Commit.encObj at hv
        split at hv
        · simp at hv
        · cases ht : encTime c.timestamp <;> simp [ht] at hv
      have := dataset_obj_rt d (some v) h (by
        rw [hc]
        exact comp_rt Commit.dec (fun _ => v) Commit.kept (some c) (fun _ => hnull) (by rintro x ⟨⟩; exact hd))
      rw [hc] at this
      exact this

/-! consequences: when nothing is lost -/

/-- A commit with its kind set survives unless it is a bare reference, … -/
theorem C06_commit_identity (c : Commit) (h : c.timestamp.Real) (hq : c.qri ≠ []) (hr : ¬ (c.path ≠ [] ∧ c.isEmpty)) :
    ∃ v, c.enc = some v ∧ Commit.dec v = .ok c := by
  obtain ⟨v, h1, h2⟩ := C06_commit_round_trip c h
  refine ⟨v, h1, ?_⟩
  rw [h2, Commit.kept, if_neg hr, kindOr, if_neg hq]

/-- … two commits that are written alike are the same once their kinds are filled in … -/
theorem C06_commit_injective (c₁ c₂ : Commit) (h₁ : c₁.timestamp.Real) (h₂ : c₂.timestamp.Real) (he : c₁.enc = c₂.enc) : c₁.kept = c₂.kept := by
  obtain ⟨v, e1, d1⟩ := C06_commit_round_trip c₁ h₁
  obtain ⟨w, e2, d2⟩ := C06_commit_round_trip c₂ h₂
  rw [he, e2] at e1
  cases e1
  rw [d1] at d2
  exact Except.ok.inj d2

/-- … and the same for datasets. -/
theorem C06_dataset_injective (d₁ d₂ : Dataset) (h₁ : d₁.Json) (h₂ : d₂.Json) (he : d₁.enc = d₂.enc) : d₁.kept = d₂.kept := by
  obtain ⟨v, e1, r1⟩ := C06_dataset_round_trip d₁ h₁
  obtain ⟨w, e2, r2⟩ := C06_dataset_round_trip d₂ h₂
  rw [he, e2] at e1
  cases e1
  rw [r1] at r2
  exact Except.ok.inj r2

/-- A structure with kind and schema survives exactly when it holds no empty map. -/
theorem C06_structure_identity (s : Structure) (h : s.Json) (hq : s.qri ≠ []) (hr : ¬ (s.path ≠ [] ∧ s.encoding = [] ∧ s.schema = none)) :
    Structure.dec s.enc = .ok s ↔ s.formatConfig ≠ some [] ∧ s.schema ≠ some [] := by
  rw [C06_structure_round_trip s h, Structure.kept, if_neg hr, kindOr, if_neg hq]
  obtain ⟨_, _, _, _, _, _, _, fc, _, _, _, sc, _⟩ := s
  simp only [Except.ok.injEq, Structure.mk.injEq, true_and, and_true, normMap]
  constructor
  · rintro ⟨a, b⟩
    constructor
    · rintro rfl; simp at a
    · rintro rfl; simp at b
  · rintro ⟨a, b⟩
    constructor
    · split <;> simp_all
    · split <;> simp_all

/-! really lost -/

/-- A structure with a path but neither encoding nor schema loses everything else. -/
theorem C06_structure_with_path_loses_fields :
    Structure.dec (Structure.enc { path := b!"/p", format := b!"csv", entries := 5, checksum := b!"Qm" }) = .ok { path := b!"/p" } := by decide +kernel

/-- A second round trip may lose more: the first turns an empty schema into none. -/
theorem C06_structure_second_trip_loses_more :
    ∃ s s' s'' : Structure, Structure.dec s.enc = .ok s' ∧ Structure.dec s'.enc = .ok s'' ∧ s'.format = s.format ∧ s''.format ≠ s'.format :=
  ⟨{ path := b!"/p", format := b!"csv", schema := some [] }, { path := b!"/p", format := b!"csv", qri := b!"st:0" }, { path := b!"/p" },
    by decide +kernel⟩

/-- Readme and viz lose their path when they have any content. -/
theorem C06_readme_loses_path : ∀ r : Readme, r.isEmpty = false → ∃ r', Readme.dec r.enc = .ok r' ∧ r'.path = [] ∧ r'.text = r.text := by
  intro r h
  refine ⟨_, C06_readme_round_trip r, ?_, ?_⟩ <;> simp [Readme.kept, h]

theorem C06_viz_loses_path : ∀ r : Viz, r.isEmpty = false → ∃ r', Viz.dec r.enc = .ok r' ∧ r'.path = [] ∧ r'.text = r.text := by
  intro r h
  refine ⟨_, C06_viz_round_trip r, ?_, ?_⟩ <;> simp [Viz.kept, h]

/-- A dataset that is only a path loses its version count and kind. -/
theorem C06_dataset_reference_loses_versions :
    (Dataset.enc { path := b!"/p", numVersions := 3, qri := b!"ds:0" }).map Dataset.dec = some (.ok { path := b!"/p" }) := by decide +kernel

example : (Dataset.enc { path := b!"/p", body := .arr [.f64 0], bodyBytes := some [1, 2], commit := some { title := b!"t", timestamp := { year := 2001 } }, structure_ := some { format := b!"json", schema := some [(b!"type", .str b!"array")] } }).map Dataset.dec =
    some (.ok { path := b!"/p", qri := b!"ds:0", body := .arr [.f64 0], bodyBytes := some [1, 2], commit := some { title := b!"t", timestamp := { year := 2001 }, qri := b!"cm:0" }, structure_ := some { format := b!"json", schema := some [(b!"type", .str b!"array")], qri := b!"st:0" } }) := by decide +kernel

example : Commit.enc { title := b!"t", timestamp := { year := 10000 } } = none := by decide +kernel

end Verif.Doc
