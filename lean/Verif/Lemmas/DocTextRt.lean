import Verif.Lemmas.DocText
import Verif.Props.DocJson
/- Reading back each component of a document from the text written for it. -/
set_option autoImplicit false
namespace Verif.DocText
open Doc JsonStd
open JsonG (Tree)
open Ndjson (Kept KeptL KeptF kept_norm keptL_norm keptF_norm)
open Hash (present)

/-! ### documents that text can carry: strings are valid UTF-8, numbers survive -/

structure UserText (u : User) : Prop where
  id : ValidUtf8 u.id
  fullname : ValidUtf8 u.fullname
  email : ValidUtf8 u.email
structure LicenseText (l : License) : Prop where
  type : ValidUtf8 l.type
  url : ValidUtf8 l.url
structure CitationText (c : Citation) : Prop where
  name : ValidUtf8 c.name
  url : ValidUtf8 c.url
  email : ValidUtf8 c.email
structure StepText (F : FloatCodec) (s : TransformStep) : Prop where
  name : ValidUtf8 s.name
  path : ValidUtf8 s.path
  syntaxName : ValidUtf8 s.syntaxName
  category : ValidUtf8 s.category
  script : Kept F s.script
structure CommitText (c : Commit) : Prop where
  author : ∀ u, c.author = some u → UserText u
  message : ValidUtf8 c.message
  path : ValidUtf8 c.path
  qri : ValidUtf8 c.qri
  signature : ValidUtf8 c.signature
  timestamp : c.timestamp.Real
  title : ValidUtf8 c.title
  runID : ValidUtf8 c.runID
structure StructureText (F : FloatCodec) (s : Structure) : Prop where
  checksum : ValidUtf8 s.checksum
  compression : ValidUtf8 s.compression
  depth : IsInt64 s.depth
  encoding : ValidUtf8 s.encoding
  errCount : IsInt64 s.errCount
  entries : IsInt64 s.entries
  format : ValidUtf8 s.format
  formatConfig : MapKept F s.formatConfig
  length : IsInt64 s.length
  path : ValidUtf8 s.path
  qri : ValidUtf8 s.qri
  schema : MapKept F s.schema
structure StatsText (F : FloatCodec) (s : Stats) : Prop where
  path : ValidUtf8 s.path
  qri : ValidUtf8 s.qri
  stats : Kept F s.stats
structure TransformText (F : FloatCodec) (q : Transform) : Prop where
  config : MapKept F q.config
  path : ValidUtf8 q.path
  qri : ValidUtf8 q.qri
  resourcesSorted : KeysSorted (q.resources.getD [])
  resources : ∀ x ∈ q.resources.getD [], ValidUtf8 x.1 ∧ ∀ p, x.2 = some p → ValidUtf8 p
  scriptPath : ValidUtf8 q.scriptPath
  text : ValidUtf8 q.text
  steps : ∀ x ∈ q.steps.getD [], ∀ s, x = some s → StepText F s
  syntaxName : ValidUtf8 q.syntaxName
  syntaxVersion : ValidUtf8 q.syntaxVersion
  syntaxesSorted : KeysSorted (q.syntaxes.getD [])
  syntaxes : ∀ x ∈ q.syntaxes.getD [], ValidUtf8 x.1 ∧ ValidUtf8 x.2
structure ReadmeText (r : Readme) : Prop where
  format : ValidUtf8 r.format
  path : ValidUtf8 r.path
  qri : ValidUtf8 r.qri
  scriptPath : ValidUtf8 r.scriptPath
  text : ValidUtf8 r.text
  renderedPath : ValidUtf8 r.renderedPath
structure VizText (r : Viz) : Prop where
  format : ValidUtf8 r.format
  path : ValidUtf8 r.path
  qri : ValidUtf8 r.qri
  scriptPath : ValidUtf8 r.scriptPath
  text : ValidUtf8 r.text
  renderedPath : ValidUtf8 r.renderedPath
/-- no arbitrary key reads as a field name -/
structure MetaText (F : FloatCodec) (m : Meta) : Prop where
  arbitrary : MapKept F m.arbitrary
  apart : ∀ x ∈ m.arbitrary.getD [], ∀ n ∈ metaNames, foldName x.1 ≠ foldName n
  accessURL : ValidUtf8 m.accessURL
  accrualPeriodicity : ValidUtf8 m.accrualPeriodicity
  citations : ∀ x ∈ m.citations.getD [], ∀ c, x = some c → CitationText c
  contributors : ∀ x ∈ m.contributors.getD [], ∀ u, x = some u → UserText u
  description : ValidUtf8 m.description
  downloadURL : ValidUtf8 m.downloadURL
  homeURL : ValidUtf8 m.homeURL
  identifier : ValidUtf8 m.identifier
  keywords : ∀ s ∈ m.keywords.getD [], ValidUtf8 s
  language : ∀ s ∈ m.language.getD [], ValidUtf8 s
  license : ∀ l, m.license = some l → LicenseText l
  path : ValidUtf8 m.path
  readmeURL : ValidUtf8 m.readmeURL
  title : ValidUtf8 m.title
  theme : ∀ s ∈ m.theme.getD [], ValidUtf8 s
  version : ValidUtf8 m.version
structure DatasetText (F : FloatCodec) (d : Dataset) : Prop where
  body : Kept F d.body
  bodyPath : ValidUtf8 d.bodyPath
  commit : ∀ c, d.commit = some c → CommitText c
  id : ValidUtf8 d.id
  meta_ : ∀ m, d.meta_ = some m → MetaText F m
  name : ValidUtf8 d.name
  path : ValidUtf8 d.path
  peername : ValidUtf8 d.peername
  previousPath : ValidUtf8 d.previousPath
  profileID : ValidUtf8 d.profileID
  readme : ∀ r, d.readme = some r → ReadmeText r
  numVersions : IsInt64 d.numVersions
  qri : ValidUtf8 d.qri
  structure_ : ∀ s, d.structure_ = some s → StructureText F s
  stats : ∀ s, d.stats = some s → StatsText F s
  transform : ∀ q, d.transform = some q → TransformText F q
  viz : ∀ r, d.viz = some r → VizText r

theorem kindOr_valid {q k : Bytes} (h : ValidUtf8 q) (hk : ValidUtf8 k) : ValidUtf8 (kindOr q k) := by
  unfold kindOr
  split
  · exact hk
  · exact h

variable (F : FloatCodec)

/-! ### plain structs -/

theorem user_tree (u : User) (h : UserText u) : intoStruct userObj (treeOf F (userVal u)) {} = .ok u := by
  have g := @fld_at Bytes F u.fields [b!"id", b!"name", b!"email"] rfl
  show userObj (treeOfF F (present u.fields)) {} = _
  unfold userObj
  rw [g _ b!"id" (omitStr u.id) _ (by decide +kernel) rfl, g _ b!"name" (omitStr u.fullname) _ (by decide +kernel) rfl,
    g _ b!"email" (omitStr u.email) _ (by decide +kernel) rfl]
  simp only [feed_omitStr F h.id, feed_omitStr F h.fullname, feed_omitStr F h.email, bind_ok, pure_ok]

theorem license_tree (u : License) (h : LicenseText u) : intoStruct licenseObj (treeOf F (licenseVal u)) {} = .ok u := by
  have g := @fld_at Bytes F u.fields [b!"type", b!"url"] rfl
  show licenseObj (treeOfF F (present u.fields)) {} = _
  unfold licenseObj
  rw [g _ b!"type" (omitStr u.type) _ (by decide +kernel) rfl, g _ b!"url" (omitStr u.url) _ (by decide +kernel) rfl]
  simp only [feed_omitStr F h.type, feed_omitStr F h.url, bind_ok, pure_ok]

theorem citation_tree (u : Citation) (h : CitationText u) : intoStruct citationObj (treeOf F (citationVal u)) {} = .ok u := by
  have g := @fld_at Bytes F u.fields [b!"name", b!"url", b!"email"] rfl
  show citationObj (treeOfF F (present u.fields)) {} = _
  unfold citationObj
  rw [g _ b!"name" (omitStr u.name) _ (by decide +kernel) rfl, g _ b!"url" (omitStr u.url) _ (by decide +kernel) rfl,
    g _ b!"email" (omitStr u.email) _ (by decide +kernel) rfl]
  simp only [feed_omitStr F h.name, feed_omitStr F h.url, feed_omitStr F h.email, bind_ok, pure_ok]

theorem step_tree (s : TransformStep) (h : StepText F s) : intoStruct (stepObj F) (treeOf F (stepVal s)) {} = .ok s := by
  have g := @fld_at Bytes F s.fields [b!"name", b!"path", b!"syntax", b!"category", b!"script"] rfl
  have gv := @fld_at Val F s.fields [b!"name", b!"path", b!"syntax", b!"category", b!"script"] rfl
  show stepObj F (treeOfF F (present s.fields)) {} = _
  unfold stepObj
  rw [g _ b!"name" (some (.str s.name)) _ (by decide +kernel) rfl, g _ b!"path" (omitStr s.path) _ (by decide +kernel) rfl,
    g _ b!"syntax" (some (.str s.syntaxName)) _ (by decide +kernel) rfl, g _ b!"category" (some (.str s.category)) _ (by decide +kernel) rfl,
    gv _ b!"script" (some s.script) _ (by decide +kernel) rfl]
  simp only [feed_str F h.name, feed_omitStr F h.path, feed_str F h.syntaxName, feed_str F h.category, feed_any F h.script, bind_ok, pure_ok]

theorem resource_tree (p : Bytes) (h : ValidUtf8 p) : resource (treeOf F (encResource p)) = .ok p := by
  have : encFields [(b!"path", some (.str p))] = present [(b!"path", some (.str p))] := rfl
  show fld intoStr (treeOfF F (encFields [(b!"path", some (.str p))])) b!"path" [] = _
  rw [this, fld_at F [(b!"path", some (.str p))] [b!"path"] rfl _ b!"path" (some (.str p)) _ (by decide +kernel) rfl, feed_str F h]

theorem user_ne (u : User) : userVal u ≠ .null := by simp [userVal]
theorem license_ne (u : License) : licenseVal u ≠ .null := by simp [licenseVal]
theorem citation_ne (u : Citation) : citationVal u ≠ .null := by simp [citationVal]
theorem step_ne (u : TransformStep) : stepVal u ≠ .null := by simp [stepVal]
theorem resource_ne (u : Bytes) : encResource u ≠ .null := by simp [encResource]

theorem fine_user (u : User) : Fine F (userVal u) := by
  apply fine_present
  simp [User.fields, allF_cons, AllF, fo_omitStr, fine_str]
theorem fine_license (u : License) : Fine F (licenseVal u) := by
  apply fine_present
  simp [License.fields, allF_cons, AllF, fo_omitStr, fine_str]
theorem fine_citation (u : Citation) : Fine F (citationVal u) := by
  apply fine_present
  simp [Citation.fields, allF_cons, AllF, fo_omitStr, fine_str]
theorem fine_step (s : TransformStep) (h : StepText F s) : Fine F (stepVal s) := by
  apply fine_present
  simp [TransformStep.fields, fo_some, AllF, allF_cons, fo_omitStr, fine_str, fine_kept F h.script]
theorem fine_resource (p : Bytes) : Fine F (encResource p) := by
  rw [encResource, fine_obj]
  intro x hx
  have : encFields [(b!"path", some (.str p))] = [(b!"path", .str p)] := rfl
  rw [this, List.mem_singleton] at hx
  subst hx
  exact fine_str F p

/-! ### commit -/

theorem commit_tree (c : Commit) (h : CommitText c) :
    commitObj (treeOfF F (present (commitFields c (timeText c.timestamp)))) = .ok { c with qri := kindOr c.qri kindCommit } := by
  have g := fun (α : Type) => @fld_at α F (commitFields c (timeText c.timestamp))
    [b!"author", b!"message", b!"path", b!"qri", b!"signature", b!"timestamp", b!"title", b!"runID"] rfl
  unfold commitObj
  rw [g _ _ b!"author" (c.author.map userVal) _ (by decide +kernel) rfl, g _ _ b!"message" (omitStr c.message) _ (by decide +kernel) rfl,
    g _ _ b!"path" (omitStr c.path) _ (by decide +kernel) rfl, g _ _ b!"qri" (omitStr (kindOr c.qri kindCommit)) _ (by decide +kernel) rfl,
    g _ _ b!"signature" (omitStr c.signature) _ (by decide +kernel) rfl, g _ _ b!"timestamp" (some (.str (timeText c.timestamp))) _ (by decide +kernel) rfl,
    g _ _ b!"title" (some (.str c.title)) _ (by decide +kernel) rfl, g _ _ b!"runID" (omitStr c.runID) _ (by decide +kernel) rfl]
  have ha := feed_ptr F (intoStruct userObj) {} userVal id c.author user_ne (fun x hx => user_tree F x (h.author x hx))
  rw [ha]
  simp only [feed_omitStr F h.message, feed_omitStr F h.path, feed_omitStr F (kindOr_valid h.qri (ascii_valid kindCommit (by decide +kernel))),
    feed_omitStr F h.signature, feed_time F c.timestamp h.timestamp, feed_str F h.title, feed_omitStr F h.runID, bind_ok, pure_ok, Option.map_id_fun, id_eq]

theorem commit_val (c : Commit) (h : CommitText c) : ∃ v, commitVal c = some v ∧ v ≠ .null ∧ Fine F v ∧ commit (treeOf F v) = .ok c.kept := by
  unfold commitVal Commit.kept
  split
  · refine ⟨_, rfl, by simp, fine_str F _, ?_⟩
    simp [treeOf, commit, component, unquote_esc, toValidUtf8_valid h.path]
  · have ht : encTime c.timestamp = some (timeText c.timestamp) := by
      unfold encTime; rw [if_pos ⟨h.timestamp.1, h.timestamp.2.1⟩]
    refine ⟨.obj (present (commitFields c (timeText c.timestamp))), by rw [ht]; rfl, by simp, ?_, commit_tree F c h⟩
    apply fine_present
    simp [commitFields, AllF, allF_cons, fo_omitStr, fine_str, fo_map, fine_user]

/-! ### structure and stats -/

theorem structure_tree (s : Structure) (h : StructureText F s) :
    structureObj F (treeOfF F (present s.fields)) =
      .ok { s with qri := kindOr s.qri kindStructure, formatConfig := normMap s.formatConfig, schema := normMap s.schema } := by
  have g := fun (α : Type) => @fld_at α F s.fields [b!"checksum", b!"compression", b!"depth", b!"encoding", b!"errCount", b!"entries", b!"format",
    b!"formatConfig", b!"length", b!"path", b!"qri", b!"schema", b!"strict"] rfl
  unfold structureObj
  rw [g _ _ b!"checksum" (omitStr s.checksum) _ (by decide +kernel) rfl, g _ _ b!"compression" (omitStr s.compression) _ (by decide +kernel) rfl, g _ _ b!"depth" (omitInt s.depth) _ (by decide +kernel) rfl,
    g _ _ b!"encoding" (omitStr s.encoding) _ (by decide +kernel) rfl, g _ _ b!"errCount" (omitInt s.errCount) _ (by decide +kernel) rfl, g _ _ b!"entries" (omitInt s.entries) _ (by decide +kernel) rfl,
    g _ _ b!"format" (some (.str s.format)) _ (by decide +kernel) rfl, g _ _ b!"formatConfig" (omitMap s.formatConfig) _ (by decide +kernel) rfl, g _ _ b!"length" (omitInt s.length) _ (by decide +kernel) rfl,
    g _ _ b!"path" (omitStr s.path) _ (by decide +kernel) rfl, g _ _ b!"qri" (some (.str (kindOr s.qri kindStructure))) _ (by decide +kernel) rfl, g _ _ b!"schema" (omitMap s.schema) _ (by decide +kernel) rfl,
    g _ _ b!"strict" (omitBool s.strict) _ (by decide +kernel) rfl]
  simp only [feed_omitStr F h.checksum, feed_omitStr F h.compression, feed_omitInt F h.depth, feed_omitStr F h.encoding, feed_omitInt F h.errCount,
    feed_omitInt F h.entries, feed_str F h.format, feed_omitMap F h.formatConfig, feed_omitInt F h.length, feed_omitStr F h.path,
    feed_str F (kindOr_valid h.qri (ascii_valid kindStructure (by decide +kernel))), feed_omitMap F h.schema, feed_omitBool, bind_ok, pure_ok]

theorem structure_val (s : Structure) (h : StructureText F s) :
    structureVal s ≠ .null ∧ Fine F (structureVal s) ∧ structure_ F (treeOf F (structureVal s)) = .ok s.kept := by
  unfold structureVal Structure.kept
  split
  · refine ⟨by simp, fine_str F _, ?_⟩
    simp [treeOf, structure_, component, unquote_esc, toValidUtf8_valid h.path]
  · refine ⟨by simp, ?_, structure_tree F s h⟩
    apply fine_present
    simp [Structure.fields, AllF, allF_cons, fo_omitStr, fo_omitInt, fo_omitBool, fine_str, fine_int, fine_bool, fo_omitMap F h.formatConfig,
      fo_omitMap F h.schema]

theorem stats_tree (s : Stats) (h : StatsText F s) : statsObj F (treeOfF F (present s.fields)) = .ok { s with qri := kindOr s.qri kindStats } := by
  have g := fun (α : Type) => @fld_at α F s.fields [b!"path", b!"qri", b!"stats"] rfl
  unfold statsObj
  rw [g _ _ b!"path" (omitStr s.path) _ (by decide +kernel) rfl, g _ _ b!"qri" (omitStr (kindOr s.qri kindStats)) _ (by decide +kernel) rfl,
    g _ _ b!"stats" (omitVal s.stats) _ (by decide +kernel) rfl]
  simp only [feed_omitStr F h.path, feed_omitStr F (kindOr_valid h.qri (ascii_valid kindStats (by decide +kernel))), feed_omitVal F h.stats, bind_ok, pure_ok]

theorem stats_val (s : Stats) (h : StatsText F s) :
    statsVal s ≠ .null ∧ Fine F (statsVal s) ∧ stats F (treeOf F (statsVal s)) = .ok s.kept := by
  unfold statsVal Stats.kept
  split
  · refine ⟨by simp, fine_str F _, ?_⟩
    simp [treeOf, stats, component, unquote_esc, toValidUtf8_valid h.path]
  · refine ⟨by simp, ?_, stats_tree F s h⟩
    apply fine_present
    simp [Stats.fields, AllF, allF_cons, fo_omitStr, fine_str, fo_omitVal, fine_kept F h.stats]

/-! ### transform -/

theorem feed_resources (o : Option (List (Bytes × Option Bytes))) (hs : KeysSorted (o.getD []))
    (h : ∀ x ∈ o.getD [], ValidUtf8 x.1 ∧ ∀ p, x.2 = some p → ValidUtf8 p) :
    feed F (intoMapOf fun T => intoComp resource [] T none) (encMapOf (ptr encResource) o) none = .ok (normMap o) := by
  apply feed_mapOf F _ _ o hs
  intro x hx
  exact ⟨(h x hx).1, ptr_elem F (fun T _ => resource T) [] encResource x.2 resource_ne (fun p hp => resource_tree F p ((h x hx).2 p hp))⟩

theorem feed_syntaxes (o : Option (List (Bytes × Bytes))) (hs : KeysSorted (o.getD []))
    (h : ∀ x ∈ o.getD [], ValidUtf8 x.1 ∧ ValidUtf8 x.2) : feed F (intoMapOf strElem) (encMapOf .str o) none = .ok (normMap o) := by
  apply feed_mapOf F _ _ o hs
  intro x hx
  exact ⟨(h x hx).1, strElem_str F (h x hx).2⟩

theorem feed_steps (o : Option (List (Option TransformStep))) (h : ∀ x ∈ o.getD [], ∀ s, x = some s → StepText F s) :
    feed F (intoList fun T => intoPtr (intoStruct (stepObj F)) {} T none) (omitList (ptr stepVal) o) none = .ok (normList o) := by
  apply feed_omitList
  rintro l rfl x hx
  exact ptr_elem F _ _ stepVal x step_ne (fun s hs => step_tree F s (h x hx s hs))

theorem transform_tree (q : Transform) (h : TransformText F q) :
    transformObj F (treeOfF F (present (transformFields q))) =
      .ok { q with qri := kindOr q.qri kindTransform, config := normMap q.config, resources := normMap q.resources, secrets := none,
                   steps := normList q.steps, syntaxes := normMap q.syntaxes, scriptFile := none } := by
  have g := fun (α : Type) => @fld_at α F (transformFields q) [b!"config", b!"path", b!"qri", b!"resources", b!"scriptPath", b!"text", b!"secrets",
    b!"steps", b!"syntax", b!"syntaxVersion", b!"syntaxes"] rfl
  unfold transformObj
  rw [g _ _ b!"config" (omitMap q.config) _ (by decide +kernel) rfl, g _ _ b!"path" (omitStr q.path) _ (by decide +kernel) rfl, g _ _ b!"qri" (omitStr (kindOr q.qri kindTransform)) _ (by decide +kernel) rfl,
    g _ _ b!"resources" (encMapOf (ptr encResource) q.resources) _ (by decide +kernel) rfl, g _ _ b!"scriptPath" (omitStr q.scriptPath) _ (by decide +kernel) rfl, g _ _ b!"text" (omitStr q.text) _ (by decide +kernel) rfl,
    g _ _ b!"secrets" none _ (by decide +kernel) rfl, g _ _ b!"steps" (omitList (ptr stepVal) q.steps) _ (by decide +kernel) rfl, g _ _ b!"syntax" (omitStr q.syntaxName) _ (by decide +kernel) rfl,
    g _ _ b!"syntaxVersion" (omitStr q.syntaxVersion) _ (by decide +kernel) rfl, g _ _ b!"syntaxes" (encMapOf .str q.syntaxes) _ (by decide +kernel) rfl]
  simp only [feed_omitMap F h.config, feed_omitStr F h.path, feed_omitStr F (kindOr_valid h.qri (ascii_valid kindTransform (by decide +kernel))),
    feed_resources F _ h.resourcesSorted h.resources, feed_omitStr F h.scriptPath, feed_omitStr F h.text, feed_none, feed_steps F _ h.steps,
    feed_omitStr F h.syntaxName, feed_omitStr F h.syntaxVersion, feed_syntaxes F _ h.syntaxesSorted h.syntaxes, bind_ok, pure_ok]

theorem transform_val (q : Transform) (h : TransformText F q) :
    transformVal q ≠ .null ∧ Fine F (transformVal q) ∧ transform F (treeOf F (transformVal q)) = .ok q.kept := by
  unfold transformVal Transform.kept
  split
  · refine ⟨by simp, fine_str F _, ?_⟩
    simp [treeOf, transform, component, unquote_esc, toValidUtf8_valid h.path]
  · refine ⟨by simp, ?_, transform_tree F q h⟩
    apply fine_present
    have h1 : FineO (Fine F) (encMapOf (ptr encResource) q.resources) := fo_mapOf F fun x _ => fine_ptr F fun p _ => fine_resource F p
    have h2 : FineO (Fine F) (omitList (ptr stepVal) q.steps) := fo_omitList F fun x hx => fine_ptr F fun s hs => fine_step F s (h.steps x hx s hs)
    have h3 : FineO (Fine F) (encMapOf .str q.syntaxes) := fo_mapOf F fun x _ => fine_str F x.2
    simp [transformFields, AllF, allF_cons, fo_omitStr, fine_str, fo_omitMap F h.config, h1, h2, h3]

/-! ### readme and viz -/

theorem readme_tree (r : Readme) (h : ReadmeText r) (hq : r.qri ≠ []) :
    readmeObj (treeOfF F (encFields r.fields)) = .ok { r with path := [], scriptFile := none, renderedFile := none } := by
  have g := fun f n o old ho h => @fld_put Bytes F [] (by simp [KeysSorted]) (by simp) r.fields [b!"qri", b!"format", b!"text", b!"scriptPath", b!"renderedPath"] rfl f n o old ho (by simp) h
  have gp := @fld_absent Bytes F r.fields [b!"qri", b!"format", b!"text", b!"scriptPath", b!"renderedPath"] rfl intoStr b!"path" [] (by decide +kernel) (by decide +kernel)
  unfold encFields at gp ⊢
  unfold readmeObj
  rw [g _ b!"format" (omitStr r.format) _ (by decide +kernel) rfl, gp, g _ b!"qri" (some (.str r.qri)) _ (by decide +kernel) rfl, g _ b!"scriptPath" (omitStr r.scriptPath) _ (by decide +kernel) rfl,
    g _ b!"text" (omitStr r.text) _ (by decide +kernel) rfl, g _ b!"renderedPath" (omitStr r.renderedPath) _ (by decide +kernel) rfl]
  simp only [feed_omitStr F h.format, feed_str F h.qri, feed_omitStr F h.scriptPath, feed_omitStr F h.text, feed_omitStr F h.renderedPath, bind_ok, pure_ok, kindOr, hq, if_false]

theorem readme_val (r : Readme) (h : ReadmeText r) :
    r.enc ≠ .null ∧ Fine F r.enc ∧ readme (treeOf F r.enc) = .ok r.kept := by
  unfold Readme.enc Readme.kept
  split
  · refine ⟨by simp, fine_str F _, ?_⟩
    simp [treeOf, readme, component, unquote_esc, toValidUtf8_valid h.path]
  · refine ⟨by simp [Readme.encObj], ?_, ?_⟩
    · refine fine_put F (m := []) ?_ (by simp)
      simp [Readme.fields, fo_some, AllF, allF_cons, fo_omitStr, fine_str]
    · exact readme_tree F { r with qri := kindOr r.qri kindReadme }
        ⟨h.format, h.path, kindOr_valid h.qri (ascii_valid kindReadme (by decide +kernel)), h.scriptPath, h.text, h.renderedPath⟩ (kindOr_idem _ _ (by decide))

theorem viz_tree (r : Viz) (h : VizText r) (hq : r.qri ≠ []) :
    vizObj (treeOfF F (encFields r.fields)) = .ok { r with path := [], scriptFile := none, renderedFile := none } := by
  have g := fun f n o old ho h => @fld_put Bytes F [] (by simp [KeysSorted]) (by simp) r.fields [b!"qri", b!"format", b!"text", b!"scriptPath", b!"renderedPath"] rfl f n o old ho (by simp) h
  have gp := @fld_absent Bytes F r.fields [b!"qri", b!"format", b!"text", b!"scriptPath", b!"renderedPath"] rfl intoStr b!"path" [] (by decide +kernel) (by decide +kernel)
  unfold encFields at gp ⊢
  unfold vizObj
  rw [g _ b!"format" (omitStr r.format) _ (by decide +kernel) rfl, gp, g _ b!"qri" (some (.str r.qri)) _ (by decide +kernel) rfl, g _ b!"scriptPath" (omitStr r.scriptPath) _ (by decide +kernel) rfl,
    g _ b!"text" (omitStr r.text) _ (by decide +kernel) rfl, g _ b!"renderedPath" (omitStr r.renderedPath) _ (by decide +kernel) rfl]
  simp only [feed_omitStr F h.format, feed_str F h.qri, feed_omitStr F h.scriptPath, feed_omitStr F h.text, feed_omitStr F h.renderedPath, bind_ok, pure_ok, kindOr, hq, if_false]

theorem viz_val (r : Viz) (h : VizText r) :
    r.enc ≠ .null ∧ Fine F r.enc ∧ viz (treeOf F r.enc) = .ok r.kept := by
  unfold Viz.enc Viz.kept
  split
  · refine ⟨by simp, fine_str F _, ?_⟩
    simp [treeOf, viz, component, unquote_esc, toValidUtf8_valid h.path]
  · refine ⟨by simp [Viz.encObj], ?_, ?_⟩
    · refine fine_put F (m := []) ?_ (by simp)
      simp [Viz.fields, fo_some, AllF, allF_cons, fo_omitStr, fine_str]
    · exact viz_tree F { r with qri := kindOr r.qri kindViz }
        ⟨h.format, h.path, kindOr_valid h.qri (ascii_valid kindViz (by decide +kernel)), h.scriptPath, h.text, h.renderedPath⟩ (kindOr_idem _ _ (by decide))

/-! ### meta -/

/-- the value can be read back as something -/
def Nrm (v : Val) : Prop := ∃ w, jnorm F v = some w

theorem nrm_str (s : Bytes) : Nrm F (.str s) := ⟨_, rfl⟩
theorem nrm_null : Nrm F .null := ⟨_, rfl⟩
theorem nrm_kept {v : Val} (h : Kept F v) : Nrm F v := ⟨v, (kept_norm F v h).1⟩
theorem nrm_L (l : List Val) (h : ∀ x ∈ l, Nrm F x) : ∃ r, jnormL F l = some r := by
  induction l with
  | nil => exact ⟨_, rfl⟩
  | cons x l ih =>
    obtain ⟨w, hw⟩ := h x (by simp)
    obtain ⟨r, hr⟩ := ih (fun y hy => h y (by simp [hy]))
    exact ⟨w :: r, by simp only [jnormL, hw, hr, Option.bind_some, Option.map_some]⟩
theorem nrm_arr (l : List Val) (h : ∀ x ∈ l, Nrm F x) : Nrm F (.arr l) := by
  obtain ⟨r, hr⟩ := nrm_L F l h
  exact ⟨_, by rw [jnorm, hr]; rfl⟩
theorem nrm_F (m : List (Bytes × Val)) (hv : ∀ x ∈ m, ValidUtf8 x.1) (h : ∀ x ∈ m, Nrm F x.2) :
    ∃ r, jnormF F m = some r ∧ r.map (·.1) = m.map (·.1) ∧ ∀ k, mapGet r k = (mapGet m k).bind (jnorm F) := by
  induction m with
  | nil => exact ⟨[], rfl, rfl, fun _ => rfl⟩
  | cons x m ih =>
    obtain ⟨k, v⟩ := x
    obtain ⟨w, hw⟩ := h (k, v) (by simp)
    have hk : toValidUtf8 0 k = k := toValidUtf8_valid (hv (k, v) (by simp))
    obtain ⟨r, hr, h1, h2⟩ := ih (fun y hy => hv y (by simp [hy])) (fun y hy => h y (by simp [hy]))
    simp only at hw
    refine ⟨(toValidUtf8 0 k, w) :: r, by simp only [jnormF, hw, hr, Option.bind_some, Option.map_some], by simp [h1, hk], ?_⟩
    intro j
    rw [hk]
    simp only [mapGet]
    split
    · exact hw.symm
    · exact h2 j

theorem nrm_present (fs : Fields) (h : AllF (Nrm F) fs) (hv : ∀ x ∈ fs, ValidUtf8 x.1) : Nrm F (.obj (present fs)) := by
  obtain ⟨r, hr, _⟩ := nrm_F F (present fs) (fun x hx => hv _ (mem_present.1 hx)) (fun x hx => allF_mem h (mem_present.1 hx))
  exact ⟨_, by rw [jnorm, hr]; rfl⟩

theorem nrm_putList {α : Type} {f : α → Val} {o : Option (List α)} (h : ∀ x, Nrm F (f x)) : FineO (Nrm F) (putList f o) := by
  cases o with
  | none => exact fo_none
  | some l =>
    apply fo_some
    apply nrm_arr
    intro x hx
    obtain ⟨y, _, rfl⟩ := List.mem_map.1 hx
    exact h y
theorem nrm_ptr {α : Type} {f : α → Val} {o : Option α} (h : ∀ x, Nrm F (f x)) : Nrm F (ptr f o) := by
  cases o with
  | none => exact nrm_null F
  | some x => exact h x
theorem names_asc {fs : Fields} {names : List Bytes} (hn : fs.map (·.1) = names) (h : names.all (fun k => k.all fun c => c.toNat < 0x80) = true) :
    ∀ x ∈ fs, ValidUtf8 x.1 := by
  intro x hx
  exact ascii_valid _ (List.all_eq_true.1 h _ (hn ▸ List.mem_map_of_mem hx))
theorem nrm_user (u : User) : Nrm F (userVal u) := by
  refine nrm_present F _ ?_ (names_asc (names := [b!"id", b!"name", b!"email"]) rfl (by decide +kernel))
  simp [User.fields, AllF, allF_cons, fo_omitStr, nrm_str]
theorem nrm_license (u : License) : Nrm F (licenseVal u) := by
  refine nrm_present F _ ?_ (names_asc (names := [b!"type", b!"url"]) rfl (by decide +kernel))
  simp [License.fields, AllF, allF_cons, fo_omitStr, nrm_str]
theorem nrm_citation (u : Citation) : Nrm F (citationVal u) := by
  refine nrm_present F _ ?_ (names_asc (names := [b!"name", b!"url", b!"email"]) rfl (by decide +kernel))
  simp [Citation.fields, AllF, allF_cons, fo_omitStr, nrm_str]

/-- the names `metaFields` writes, in its order -/
def metaOrder : List Bytes := [b!"qri", b!"accessURL", b!"citations", b!"contributors", b!"description", b!"downloadURL", b!"homeURL",
  b!"identifier", b!"keywords", b!"language", b!"license", b!"path", b!"readmeURL", b!"theme", b!"title", b!"accrualPeriodicity", b!"version"]
theorem metaFields_names (m : Meta) : (metaFields m).map (·.1) = metaOrder := rfl

theorem nrm_metaFields (m : Meta) : AllF (Nrm F) (metaFields m) := by
  have h1 : FineO (Nrm F) (some (.str kindMeta)) := fo_some (nrm_str F _)
  have h2 : FineO (Nrm F) (putList (ptr citationVal) m.citations) := nrm_putList F fun x => nrm_ptr F (nrm_citation F)
  have h3 : FineO (Nrm F) (putList (ptr userVal) m.contributors) := nrm_putList F fun x => nrm_ptr F (nrm_user F)
  have h4 : FineO (Nrm F) (putList .str m.keywords) := nrm_putList F (nrm_str F)
  have h5 : FineO (Nrm F) (putList .str m.language) := nrm_putList F (nrm_str F)
  have h6 : FineO (Nrm F) (putList .str m.theme) := nrm_putList F (nrm_str F)
  have h7 : FineO (Nrm F) (m.license.map licenseVal) := fo_map fun x _ => nrm_license F x
  simp [metaFields, AllF, allF_cons, fo_omitStr, nrm_str, h1, h2, h3, h4, h5, h6, h7]

theorem fine_metaFields (m : Meta) : AllF (Fine F) (metaFields m) := by
  have h1 : FineO (Fine F) (some (.str kindMeta)) := fo_some (fine_str F _)
  have h2 : FineO (Fine F) (putList (ptr citationVal) m.citations) := fo_putList F fun x _ => fine_ptr F fun c _ => fine_citation F c
  have h3 : FineO (Fine F) (putList (ptr userVal) m.contributors) := fo_putList F fun x _ => fine_ptr F fun c _ => fine_user F c
  have h4 : FineO (Fine F) (putList .str m.keywords) := fo_putList F fun x _ => fine_str F x
  have h5 : FineO (Fine F) (putList .str m.language) := fo_putList F fun x _ => fine_str F x
  have h6 : FineO (Fine F) (putList .str m.theme) := fo_putList F fun x _ => fine_str F x
  have h7 : FineO (Fine F) (m.license.map licenseVal) := fo_map fun x _ => fine_license F x
  simp [metaFields, AllF, allF_cons, fo_omitStr, fine_str, h1, h2, h3, h4, h5, h6, h7]

theorem keptL_strs (l : List Bytes) (h : ∀ s ∈ l, ValidUtf8 s) : KeptL F (l.map Val.str) := by
  induction l with
  | nil => trivial
  | cons x l ih => exact ⟨h x (by simp), ih fun s hs => h s (by simp [hs])⟩

/-- what the second pass of `Meta.UnmarshalJSON` keeps of the members written for a meta -/
theorem meta_rest (m : Meta) (h : MetaText F m) :
    ∃ L, intoAnyMap F (.obj (treeOfF F (putFields (m.arbitrary.getD []) (metaFields m)))) none = .ok (some L) ∧
      metaReserved.foldl mapDel L = m.rest := by
  have hs := h.arbitrary.1
  have hk := keptF_mem F h.arbitrary.2
  have hso : KeysSorted (putFields (m.arbitrary.getD []) (metaFields m)) := keysSorted_putFields _ hs
  have hasc : ∀ x ∈ metaFields m, ValidUtf8 x.1 := names_asc (names := metaOrder) rfl (by decide +kernel)
  obtain ⟨r, hr, hkeys, hget⟩ := nrm_F F (putFields (m.arbitrary.getD []) (metaFields m))
    (fun x hx => by
      rcases mem_putFields_val hx with hx | hx
      · exact hasc _ hx
      · exact (hk x hx).1)
    (fun x hx => by
      rcases mem_putFields_val hx with hx | hx
      · exact allF_mem (nrm_metaFields F m) hx
      · exact nrm_kept F (hk x hx).2)
  have hrs : KeysSorted r := by
    unfold KeysSorted at hso ⊢
    have := List.pairwise_map (f := fun x : Bytes × Val => x.1) (R := fun a b => bytesLt a b = true) (l := r)
    rw [← this, hkeys, List.pairwise_map]
    exact hso
  refine ⟨r, ?_, ?_⟩
  · simp only [intoAnyMap, plainF_treeOf, hr, Option.getD_none]
    rw [foldSet_sorted hrs]
  · apply map_ext (keysSorted_foldDel _ hrs) (keysSorted_foldDel _ (keysSorted_putFields _ hs))
    intro k
    rw [mapGet_foldDel _ hrs]
    have hm := mapGet_rest m hs k
    unfold Meta.rest at hm
    rw [hm]
    by_cases hres : k ∈ metaReserved
    · rw [if_pos hres, if_pos hres]
    · rw [if_neg hres, if_neg hres, hget, mapGet_putFields _ _ (by rw [metaFields_names]; decide +kernel)]
      have harb : (mapGet (m.arbitrary.getD []) k).bind (jnorm F) = mapGet (m.arbitrary.getD []) k := by
        cases e : mapGet (m.arbitrary.getD []) k with
        | none => rfl
        | some v => exact (kept_norm F v (hk _ ((map_get_mem hs).1 e)).2).1
      by_cases hkw : k = b!"keywords"
      · rw [if_pos hkw]
        subst hkw
        have : lookupF (metaFields m) b!"keywords" = putList .str m.keywords := rfl
        rw [this]
        cases e : m.keywords with
        | none => exact harb
        | some l =>
          have hl := h.keywords
          rw [e] at hl
          exact (kept_norm F (.arr (l.map Val.str)) (keptL_strs F l hl)).1
      · rw [if_neg hkw]
        have : lookupF (metaFields m) k = none := by
          apply lookupF_none
          intro hmem
          rw [metaFields_names] at hmem
          have hall : ∀ n ∈ metaOrder, n ∈ metaReserved ∨ n = b!"keywords" := by decide +kernel
          rcases hall k hmem with h | h
          · exact hres h
          · exact hkw h
        rw [this]
        exact harb

theorem meta_tree (m : Meta) (h : MetaText F m) :
    metaObj F (treeOfF F (putFields (m.arbitrary.getD []) (metaFields m))) =
      .ok { m with qri := kindMeta, arbitrary := if m.rest = [] then none else some m.rest } := by
  obtain ⟨L, hL, hrest⟩ := meta_rest F m h
  have hk := keptF_mem F h.arbitrary.2
  have g := fun (α : Type) (f : Into α) (n : Bytes) (o : Option Val) (old : α) (ho : okNames metaOrder n = true) (hm : n ∈ metaNames) =>
    fld_put F (m.arbitrary.getD []) h.arbitrary.1 (fun x hx => (hk x hx).1) (metaFields m) metaOrder rfl f n o old ho (fun x hx => h.apart x hx n hm)
  unfold metaObj
  rw [hL]
  rw [g _ _ b!"accessURL" (omitStr m.accessURL) _ (by decide +kernel) (by decide +kernel) rfl, g _ _ b!"accrualPeriodicity" (omitStr m.accrualPeriodicity) _ (by decide +kernel) (by decide +kernel) rfl,
    g _ _ b!"citations" (putList (ptr citationVal) m.citations) _ (by decide +kernel) (by decide +kernel) rfl, g _ _ b!"contributors" (putList (ptr userVal) m.contributors) _ (by decide +kernel) (by decide +kernel) rfl,
    g _ _ b!"description" (omitStr m.description) _ (by decide +kernel) (by decide +kernel) rfl, g _ _ b!"downloadURL" (omitStr m.downloadURL) _ (by decide +kernel) (by decide +kernel) rfl,
    g _ _ b!"homeURL" (omitStr m.homeURL) _ (by decide +kernel) (by decide +kernel) rfl, g _ _ b!"identifier" (omitStr m.identifier) _ (by decide +kernel) (by decide +kernel) rfl,
    g _ _ b!"keywords" (putList .str m.keywords) _ (by decide +kernel) (by decide +kernel) rfl, g _ _ b!"language" (putList .str m.language) _ (by decide +kernel) (by decide +kernel) rfl,
    g _ _ b!"license" (m.license.map licenseVal) _ (by decide +kernel) (by decide +kernel) rfl, g _ _ b!"path" (omitStr m.path) _ (by decide +kernel) (by decide +kernel) rfl,
    g _ _ b!"qri" (some (.str kindMeta)) _ (by decide +kernel) (by decide +kernel) rfl, g _ _ b!"readmeURL" (omitStr m.readmeURL) _ (by decide +kernel) (by decide +kernel) rfl,
    g _ _ b!"title" (omitStr m.title) _ (by decide +kernel) (by decide +kernel) rfl, g _ _ b!"theme" (putList .str m.theme) _ (by decide +kernel) (by decide +kernel) rfl,
    g _ _ b!"version" (omitStr m.version) _ (by decide +kernel) (by decide +kernel) rfl]
  have h1 : feed F (intoList fun T => intoPtr (intoStruct citationObj) {} T none) (putList (ptr citationVal) m.citations) none = .ok m.citations := by
    apply feed_putList
    intro l hl x hx
    exact ptr_elem F _ _ citationVal x citation_ne (fun s hs => citation_tree F s (h.citations x (by rw [hl]; exact hx) s hs))
  have h2 : feed F (intoList fun T => intoPtr (intoStruct userObj) {} T none) (putList (ptr userVal) m.contributors) none = .ok m.contributors := by
    apply feed_putList
    intro l hl x hx
    exact ptr_elem F _ _ userVal x user_ne (fun s hs => user_tree F s (h.contributors x (by rw [hl]; exact hx) s hs))
  have h3 := feed_ptr F (intoStruct licenseObj) {} licenseVal id m.license license_ne (fun x hx => license_tree F x (h.license x hx))
  rw [h1, h2, h3]
  simp only [feed_omitStr F h.accessURL, feed_omitStr F h.accrualPeriodicity, feed_omitStr F h.description, feed_omitStr F h.downloadURL,
    feed_omitStr F h.homeURL, feed_omitStr F h.identifier, feed_putStrs F _ h.keywords, feed_putStrs F _ h.language, feed_omitStr F h.path,
    feed_str F (ascii_valid kindMeta (by decide +kernel)), feed_omitStr F h.readmeURL, feed_omitStr F h.title, feed_putStrs F _ h.theme,
    feed_omitStr F h.version, bind_ok, pure_ok, Option.map_id_fun, id_eq, Option.getD_some, hrest]

theorem meta_val (m : Meta) (h : MetaText F m) :
    metaVal m ≠ .null ∧ Fine F (metaVal m) ∧ meta_ F (treeOf F (metaVal m)) = .ok m.kept := by
  unfold metaVal Meta.kept
  split
  · refine ⟨by simp, fine_str F _, ?_⟩
    simp [treeOf, meta_, component, unquote_esc, toValidUtf8_valid h.path]
  · exact ⟨by simp, fine_put F (fine_metaFields F m) fun x hx => fine_kept F (keptF_mem F h.arbitrary.2 x hx).2, meta_tree F m h⟩

/-! ### dataset -/

theorem feed_comp {α : Type} (f : Tree → D α) (zero : α) (g : α → Val) (k : α → α) (o : Option α)
    (h : ∀ x, o = some x → g x ≠ .null ∧ f (treeOf F (g x)) = .ok (k x)) : feed F (intoComp f zero) (o.map g) none = .ok (o.map k) := by
  cases o with
  | none => rfl
  | some x =>
    simp only [Option.map_some, feed, intoComp]
    rw [intoPtr_ne _ _ _ _ (treeOf_null F (h x rfl).1), (h x rfl).2]
    rfl

theorem commit_feed (o : Option Commit) (h : ∀ c, o = some c → CommitText c) :
    ∃ cm, encComp commitVal o = some cm ∧ FineO (Fine F) cm ∧ feed F (intoComp commit {}) cm none = .ok (o.map Commit.kept) := by
  cases o with
  | none => exact ⟨none, rfl, fo_none, rfl⟩
  | some c =>
    obtain ⟨v, h1, h2, h3, h4⟩ := commit_val F c (h c rfl)
    refine ⟨some v, by rw [encComp, h1]; rfl, fo_some h3, ?_⟩
    exact feed_comp F commit {} (fun _ => v) Commit.kept (some c) (by rintro x ⟨⟩; exact ⟨h2, h4⟩)

theorem dataset_tree (d : Dataset) (h : DatasetText F d) (cm : Option Val)
    (hcm : feed F (intoComp commit {}) cm none = .ok (d.commit.map Commit.kept)) :
    datasetObj F (treeOfF F (present (datasetFields d cm))) =
      .ok { d with bodyFile := none, bodyBytes := normList d.bodyBytes, qri := kindOr d.qri kindDataset,
                   commit := d.commit.map Commit.kept, meta_ := d.meta_.map Meta.kept, readme := d.readme.map Readme.kept,
                   structure_ := d.structure_.map Structure.kept, stats := d.stats.map Stats.kept,
                   transform := d.transform.map Transform.kept, viz := d.viz.map Viz.kept } := by
  have g := fun (α : Type) => @fld_at α F (datasetFields d cm) [b!"body", b!"bodyBytes", b!"bodyPath", b!"commit", b!"id", b!"meta", b!"name", b!"path",
    b!"peername", b!"previousPath", b!"profileID", b!"readme", b!"numVersions", b!"qri", b!"structure", b!"stats", b!"transform", b!"viz"] rfl
  have h1 := feed_comp F (meta_ F) {} metaVal Meta.kept d.meta_ fun x hx => let t := meta_val F x (h.meta_ x hx); ⟨t.1, t.2.2⟩
  have h2 := feed_comp F readme {} Readme.enc Readme.kept d.readme fun x hx => let t := readme_val F x (h.readme x hx); ⟨t.1, t.2.2⟩
  have h3 := feed_comp F (structure_ F) {} structureVal Structure.kept d.structure_ fun x hx => let t := structure_val F x (h.structure_ x hx); ⟨t.1, t.2.2⟩
  have h4 := feed_comp F (stats F) {} statsVal Stats.kept d.stats fun x hx => let t := stats_val F x (h.stats x hx); ⟨t.1, t.2.2⟩
  have h5 := feed_comp F (transform F) {} transformVal Transform.kept d.transform fun x hx => let t := transform_val F x (h.transform x hx); ⟨t.1, t.2.2⟩
  have h6 := feed_comp F viz {} Viz.enc Viz.kept d.viz fun x hx => let t := viz_val F x (h.viz x hx); ⟨t.1, t.2.2⟩
  unfold datasetObj
  rw [g _ _ b!"body" (omitVal d.body) _ (by decide +kernel) rfl, g _ _ b!"bodyBytes" (omitBytes d.bodyBytes) _ (by decide +kernel) rfl,
    g _ _ b!"bodyPath" (omitStr d.bodyPath) _ (by decide +kernel) rfl, g _ _ b!"commit" cm _ (by decide +kernel) rfl, g _ _ b!"id" (omitStr d.id) _ (by decide +kernel) rfl,
    g _ _ b!"meta" (d.meta_.map metaVal) _ (by decide +kernel) rfl, g _ _ b!"name" (omitStr d.name) _ (by decide +kernel) rfl, g _ _ b!"path" (omitStr d.path) _ (by decide +kernel) rfl,
    g _ _ b!"peername" (omitStr d.peername) _ (by decide +kernel) rfl, g _ _ b!"previousPath" (omitStr d.previousPath) _ (by decide +kernel) rfl,
    g _ _ b!"profileID" (omitStr d.profileID) _ (by decide +kernel) rfl, g _ _ b!"readme" (d.readme.map Readme.enc) _ (by decide +kernel) rfl,
    g _ _ b!"numVersions" (omitInt d.numVersions) _ (by decide +kernel) rfl, g _ _ b!"qri" (some (.str (kindOr d.qri kindDataset))) _ (by decide +kernel) rfl,
    g _ _ b!"structure" (d.structure_.map structureVal) _ (by decide +kernel) rfl, g _ _ b!"stats" (d.stats.map statsVal) _ (by decide +kernel) rfl,
    g _ _ b!"transform" (d.transform.map transformVal) _ (by decide +kernel) rfl, g _ _ b!"viz" (d.viz.map Viz.enc) _ (by decide +kernel) rfl]
  rw [h1, h2, h3, h4, h5, h6, hcm]
  simp only [feed_omitVal F h.body, feed_bytes, feed_omitStr F h.bodyPath, feed_omitStr F h.id, feed_omitStr F h.name, feed_omitStr F h.path,
    feed_omitStr F h.peername, feed_omitStr F h.previousPath, feed_omitStr F h.profileID, feed_omitInt F h.numVersions,
    feed_str F (kindOr_valid h.qri (ascii_valid kindDataset (by decide +kernel))), bind_ok, pure_ok]

theorem dataset_val (d : Dataset) (h : DatasetText F d) :
    ∃ v, datasetVal d = some v ∧ v ≠ .null ∧ Fine F v ∧ dataset F (treeOf F v) = .ok d.kept := by
  unfold datasetVal Dataset.kept
  split
  · refine ⟨_, rfl, by simp, fine_str F _, ?_⟩
    simp [treeOf, dataset, component, unquote_esc, toValidUtf8_valid h.path]
  · obtain ⟨cm, h1, h2, h3⟩ := commit_feed F d.commit h.commit
    refine ⟨.obj (present (datasetFields d cm)), by rw [h1]; rfl, by simp, ?_, dataset_tree F d h cm h3⟩
    apply fine_present
    have e1 : FineO (Fine F) (d.meta_.map metaVal) := fo_map fun x hx => (meta_val F x (h.meta_ x hx)).2.1
    have e2 : FineO (Fine F) (d.readme.map Readme.enc) := fo_map fun x hx => (readme_val F x (h.readme x hx)).2.1
    have e3 : FineO (Fine F) (d.structure_.map structureVal) := fo_map fun x hx => (structure_val F x (h.structure_ x hx)).2.1
    have e4 : FineO (Fine F) (d.stats.map statsVal) := fo_map fun x hx => (stats_val F x (h.stats x hx)).2.1
    have e5 : FineO (Fine F) (d.transform.map transformVal) := fo_map fun x hx => (transform_val F x (h.transform x hx)).2.1
    have e6 : FineO (Fine F) (d.viz.map Viz.enc) := fo_map fun x hx => (viz_val F x (h.viz x hx)).2.1
    simp [datasetFields, AllF, allF_cons, fo_omitStr, fo_omitInt, fo_omitVal, fo_omitBytes, fine_str, fine_int, fine_kept F h.body, e1, e2, e3, e4, e5, e6, h2]

end Verif.DocText
