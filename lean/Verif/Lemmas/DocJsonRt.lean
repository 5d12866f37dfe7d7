import Verif.Lemmas.DocJson
/- Field by field: decoding what was encoded, for each component. -/
namespace Verif.Doc

theorem getAll_at (fs : Fields) (names : List Bytes) (hn : fs.map (·.1) = names) (n : Bytes) (o : Option Val)
    (h : okName names n = true) (ho : lookupF fs n = o) : getAll (encFields fs) n = o.toList := by
  subst hn; rw [getAll_enc fs h, ho]

theorem user_rt (u : User) : User.dec u.enc = .ok u := by
  have g := getAll_at u.fields [b!"id", b!"name", b!"email"] rfl
  show User.decObj (encFields u.fields) = _
  unfold User.decObj
  rw [g b!"id" (omitStr u.id) (by decide +kernel) rfl, g b!"name" (omitStr u.fullname) (by decide +kernel) rfl, g b!"email" (omitStr u.email) (by decide +kernel) rfl]
  simp only [decStr_omit, bind_ok, pure_ok]

theorem license_rt (u : License) : License.dec u.enc = .ok u := by
  have g := getAll_at u.fields [b!"type", b!"url"] rfl
  show License.decObj (encFields u.fields) = _
  unfold License.decObj
  rw [g b!"type" (omitStr u.type) (by decide +kernel) rfl, g b!"url" (omitStr u.url) (by decide +kernel) rfl]
  simp only [decStr_omit, bind_ok, pure_ok]

theorem citation_rt (u : Citation) : Citation.dec u.enc = .ok u := by
  have g := getAll_at u.fields [b!"name", b!"url", b!"email"] rfl
  show Citation.decObj (encFields u.fields) = _
  unfold Citation.decObj
  rw [g b!"name" (omitStr u.name) (by decide +kernel) rfl, g b!"url" (omitStr u.url) (by decide +kernel) rfl, g b!"email" (omitStr u.email) (by decide +kernel) rfl]
  simp only [decStr_omit, bind_ok, pure_ok]

theorem decTime_text (t : Time) (h : t.Real) : decTime (some (Val.str (timeText t))).toList = .ok t := by
  simp only [toList_some, decTime, List.foldlM_cons, List.foldlM_nil, parseTime_text t h]; rfl

theorem decUser_omit (o : Option User) : decOpt User.dec (o.map User.enc).toList = .ok o := by
  have := decOpt_map User.dec User.enc o (fun _ _ => by simp [User.enc]) (n := id) (fun x _ => user_rt x)
  simpa using this

theorem commit_obj_rt (c : Commit) (tt : Bytes) (ht : decTime (some (Val.str tt)).toList = .ok c.timestamp) :
    Commit.decObj (encFields (c.fields tt)) = .ok { c with qri := kindOr c.qri kindCommit } := by
  have g := getAll_at (c.fields tt)
    [b!"author", b!"message", b!"path", b!"qri", b!"signature", b!"timestamp", b!"title", b!"runID"] rfl
  unfold Commit.decObj
  rw [g b!"author" (c.author.map User.enc) (by decide +kernel) rfl, g b!"message" (omitStr c.message) (by decide +kernel) rfl, g b!"path" (omitStr c.path) (by decide +kernel) rfl,
    g b!"qri" (omitStr (kindOr c.qri kindCommit)) (by decide +kernel) rfl, g b!"signature" (omitStr c.signature) (by decide +kernel) rfl, g b!"timestamp" (some (.str tt)) (by decide +kernel) rfl,
    g b!"title" (some (.str c.title)) (by decide +kernel) rfl, g b!"runID" (omitStr c.runID) (by decide +kernel) rfl]
  simp only [decUser_omit, decStr_omit, decStr_one, ht, bind_ok, pure_ok]

theorem structure_obj_rt (s : Structure) (hd : IsInt64 s.depth) (he : IsInt64 s.errCount) (hn : IsInt64 s.entries) (hl : IsInt64 s.length)
    (hf : ∀ l, s.formatConfig = some l → isJsonM l = true) (hs : ∀ l, s.schema = some l → isJsonM l = true) :
    Structure.decObj (encFields s.fields) =
      .ok { s with qri := kindOr s.qri kindStructure, formatConfig := normMap s.formatConfig, schema := normMap s.schema } := by
  have g := getAll_at s.fields [b!"checksum", b!"compression", b!"depth", b!"encoding", b!"errCount", b!"entries", b!"format",
    b!"formatConfig", b!"length", b!"path", b!"qri", b!"schema", b!"strict"] rfl
  unfold Structure.decObj
  rw [g b!"checksum" (omitStr s.checksum) (by decide +kernel) rfl, g b!"compression" (omitStr s.compression) (by decide +kernel) rfl, g b!"depth" (omitInt s.depth) (by decide +kernel) rfl,
    g b!"encoding" (omitStr s.encoding) (by decide +kernel) rfl, g b!"errCount" (omitInt s.errCount) (by decide +kernel) rfl, g b!"entries" (omitInt s.entries) (by decide +kernel) rfl,
    g b!"format" (some (.str s.format)) (by decide +kernel) rfl, g b!"formatConfig" (omitMap s.formatConfig) (by decide +kernel) rfl, g b!"length" (omitInt s.length) (by decide +kernel) rfl,
    g b!"path" (omitStr s.path) (by decide +kernel) rfl, g b!"qri" (some (.str (kindOr s.qri kindStructure))) (by decide +kernel) rfl, g b!"schema" (omitMap s.schema) (by decide +kernel) rfl,
    g b!"strict" (omitBool s.strict) (by decide +kernel) rfl]
  simp only [decStr_omit, decStr_one, decInt_omit _ hd, decInt_omit _ he, decInt_omit _ hn, decInt_omit _ hl, decBool_omit,
    decAnyMap_omit _ hf, decAnyMap_omit _ hs, bind_ok, pure_ok]

theorem stats_obj_rt (s : Stats) (h : isJson s.stats = true) :
    Stats.decObj (encFields s.fields) = .ok { s with qri := kindOr s.qri kindStats } := by
  have g := getAll_at s.fields [b!"path", b!"qri", b!"stats"] rfl
  unfold Stats.decObj
  rw [g b!"path" (omitStr s.path) (by decide +kernel) rfl, g b!"qri" (omitStr (kindOr s.qri kindStats)) (by decide +kernel) rfl, g b!"stats" (omitVal s.stats) (by decide +kernel) rfl]
  simp only [decStr_omit, decVal_omit _ h, bind_ok, pure_ok]

theorem step_rt (s : TransformStep) (h : isJson s.script = true) : TransformStep.dec s.enc = .ok s := by
  have g := getAll_at s.fields [b!"name", b!"path", b!"syntax", b!"category", b!"script"] rfl
  show TransformStep.decObj (encFields s.fields) = _
  unfold TransformStep.decObj
  rw [g b!"name" (some (.str s.name)) (by decide +kernel) rfl, g b!"path" (omitStr s.path) (by decide +kernel) rfl, g b!"syntax" (some (.str s.syntaxName)) (by decide +kernel) rfl,
    g b!"category" (some (.str s.category)) (by decide +kernel) rfl, g b!"script" (some s.script) (by decide +kernel) rfl]
  simp only [decStr_omit, decStr_one, decVal_one _ h, bind_ok, pure_ok]

theorem resource_rt (p : Bytes) : decResource (encResource p) = .ok p := by
  show decStr (getAll (encFields [(b!"path", some (.str p))]) b!"path") = _
  rw [getAll_at [(b!"path", some (.str p))] [b!"path"] rfl b!"path" _ (by decide +kernel) rfl]
  rfl

theorem decResources_enc (o : Option (List (Bytes × Option Bytes))) :
    decOpt (decMapOf (decPtr decResource)) (encMapOf (ptr encResource) o).toList = .ok (normMap o) := by
  rw [decMap_enc (decPtr decResource) (ptr encResource) id o
    (fun _ _ x _ => decPtr_ptr decResource encResource x.2 (by intro p; simp [encResource]) (fun p _ => resource_rt p))]
  cases normMap o <;> simp

theorem decSyntaxes_enc (o : Option (List (Bytes × Bytes))) :
    decOpt (decMapOf decStrElem) (encMapOf .str o).toList = .ok (normMap o) := by
  rw [decMap_enc decStrElem .str id o (fun _ _ _ _ => rfl)]
  cases normMap o <;> simp

theorem decSteps_enc (o : Option (List (Option TransformStep)))
    (h : ∀ l, o = some l → ∀ x ∈ l, ∀ s, x = some s → isJson s.script = true) :
    decOpt (decList (decPtr TransformStep.dec)) (omitList (ptr TransformStep.enc) o).toList = .ok (normList o) := by
  rw [decList_omit (decPtr TransformStep.dec) (ptr TransformStep.enc) id o
    (fun l hl x hx => decPtr_ptr _ _ x (by intro p; simp [TransformStep.enc]) (fun s hs => step_rt s (h l hl x hx s hs)))]
  cases normList o <;> simp

theorem transform_obj_rt (q : Transform) (hc : ∀ l, q.config = some l → isJsonM l = true)
    (hs : ∀ l, q.steps = some l → ∀ x ∈ l, ∀ s, x = some s → isJson s.script = true) :
    Transform.decObj (encFields q.fields) =
      .ok { q with qri := kindOr q.qri kindTransform, config := normMap q.config, resources := normMap q.resources, secrets := none,
                   steps := normList q.steps, syntaxes := normMap q.syntaxes, scriptFile := none } := by
  have g := getAll_at q.fields [b!"config", b!"path", b!"qri", b!"resources", b!"scriptPath", b!"text", b!"secrets", b!"steps",
    b!"syntax", b!"syntaxVersion", b!"syntaxes"] rfl
  unfold Transform.decObj
  rw [g b!"config" (omitMap q.config) (by decide +kernel) rfl, g b!"path" (omitStr q.path) (by decide +kernel) rfl, g b!"qri" (omitStr (kindOr q.qri kindTransform)) (by decide +kernel) rfl,
    g b!"resources" (encMapOf (ptr encResource) q.resources) (by decide +kernel) rfl, g b!"scriptPath" (omitStr q.scriptPath) (by decide +kernel) rfl, g b!"text" (omitStr q.text) (by decide +kernel) rfl,
    g b!"secrets" (none) (by decide +kernel) rfl, g b!"steps" (omitList (ptr TransformStep.enc) q.steps) (by decide +kernel) rfl, g b!"syntax" (omitStr q.syntaxName) (by decide +kernel) rfl,
    g b!"syntaxVersion" (omitStr q.syntaxVersion) (by decide +kernel) rfl, g b!"syntaxes" (encMapOf .str q.syntaxes) (by decide +kernel) rfl]
  have h0 : decOpt (decMapOf decStrElem) (none : Option Val).toList = .ok none := rfl
  simp only [decAnyMap_omit _ hc, decStr_omit, decResources_enc, decSteps_enc _ hs, decSyntaxes_enc, h0, bind_ok, pure_ok]

theorem readme_obj_rt (r : Readme) (hq : r.qri ≠ []) :
    Readme.decObj (encFields r.fields) = .ok { r with path := [], scriptFile := none, renderedFile := none } := by
  have g := getAll_at r.fields [b!"qri", b!"format", b!"text", b!"scriptPath", b!"renderedPath"] rfl
  have gp : getAll (encFields r.fields) b!"path" = [] :=
    getAll_enc_none r.fields (by intro k hk; revert k; show ∀ k ∈ [b!"qri", b!"format", b!"text", b!"scriptPath", b!"renderedPath"], _; decide +kernel)
  unfold Readme.decObj
  rw [g b!"format" (omitStr r.format) (by decide +kernel) rfl, gp, g b!"qri" (some (.str r.qri)) (by decide +kernel) rfl, g b!"scriptPath" (omitStr r.scriptPath) (by decide +kernel) rfl,
    g b!"text" (omitStr r.text) (by decide +kernel) rfl, g b!"renderedPath" (omitStr r.renderedPath) (by decide +kernel) rfl]
  have h0 : decStr [] = .ok [] := rfl
  simp only [h0, decStr_omit, decStr_one, bind_ok, pure_ok, kindOr, hq, if_false]

theorem viz_obj_rt (r : Viz) (hq : r.qri ≠ []) :
    Viz.decObj (encFields r.fields) = .ok { r with path := [], scriptFile := none, renderedFile := none } := by
  have g := getAll_at r.fields [b!"qri", b!"format", b!"text", b!"scriptPath", b!"renderedPath"] rfl
  have gp : getAll (encFields r.fields) b!"path" = [] :=
    getAll_enc_none r.fields (by intro k hk; revert k; show ∀ k ∈ [b!"qri", b!"format", b!"text", b!"scriptPath", b!"renderedPath"], _; decide +kernel)
  unfold Viz.decObj
  rw [g b!"format" (omitStr r.format) (by decide +kernel) rfl, gp, g b!"qri" (some (.str r.qri)) (by decide +kernel) rfl, g b!"scriptPath" (omitStr r.scriptPath) (by decide +kernel) rfl,
    g b!"text" (omitStr r.text) (by decide +kernel) rfl, g b!"renderedPath" (omitStr r.renderedPath) (by decide +kernel) rfl]
  have h0 : decStr [] = .ok [] := rfl
  simp only [h0, decStr_omit, decStr_one, bind_ok, pure_ok, kindOr, hq, if_false]

/-- struct field names of a meta (meta.go:17-64) -/
def metaNames : List Bytes :=
  [b!"accessURL", b!"accrualPeriodicity", b!"citations", b!"contributors", b!"description", b!"downloadURL", b!"homeURL",
   b!"identifier", b!"keywords", b!"language", b!"license", b!"path", b!"qri", b!"readmeURL", b!"title", b!"theme", b!"version"]

theorem decCitations_put (o : Option (List (Option Citation))) :
    decOpt (decList (decPtr Citation.dec)) (putList (ptr Citation.enc) o).toList = .ok o := by
  rw [decList_put (decPtr Citation.dec) (ptr Citation.enc) id o
    (fun l _ x _ => decPtr_ptr _ _ x (by intro p; simp [Citation.enc]) (fun s _ => citation_rt s))]
  cases o <;> simp

theorem decContributors_put (o : Option (List (Option User))) :
    decOpt (decList (decPtr User.dec)) (putList (ptr User.enc) o).toList = .ok o := by
  rw [decList_put (decPtr User.dec) (ptr User.enc) id o
    (fun l _ x _ => decPtr_ptr _ _ x (by intro p; simp [User.enc]) (fun s _ => user_rt s))]
  cases o <;> simp

theorem decLicense_omit (o : Option License) : decOpt License.dec (o.map License.enc).toList = .ok o := by
  have := decOpt_map License.dec License.enc o (fun _ _ => by simp [License.enc]) (n := id) (fun x _ => license_rt x)
  simpa using this

/-- entries that stay in the arbitrary map after a round trip -/
def Meta.rest (m : Meta) : List (Bytes × Val) := metaReserved.foldl mapDel (putFields (m.arbitrary.getD []) m.fields)

theorem meta_obj_rt (m : Meta) (hs : KeysSorted (m.arbitrary.getD []))
    (ha : ∀ x ∈ m.arbitrary.getD [], ∀ n ∈ metaNames, foldName x.1 ≠ foldName n) (hj : isJsonM m.rest = true) :
    Meta.decObj (putFields (m.arbitrary.getD []) m.fields) =
      .ok { m with qri := kindMeta, arbitrary := if m.rest = [] then none else some m.rest } := by
  have g : ∀ (n : Bytes) (o : Option Val), okName (m.fields.map (·.1)) n = true → n ∈ metaNames → lookupF m.fields n = o →
      getAll (putFields (m.arbitrary.getD []) m.fields) n = o.toList := by
    intro n o hn hm ho
    rw [getAll_put hs m.fields (fun x hx => ha x hx n hm) hn, ho]
  have g := fun n o (hn : okName [b!"qri", b!"accessURL", b!"citations", b!"contributors", b!"description", b!"downloadURL", b!"homeURL",
    b!"identifier", b!"keywords", b!"language", b!"license", b!"path", b!"readmeURL", b!"theme", b!"title", b!"accrualPeriodicity",
    b!"version"] n = true) => g n o hn
  unfold Meta.decObj
  rw [g b!"accessURL" (omitStr m.accessURL) (by decide +kernel) (by decide +kernel) rfl, g b!"accrualPeriodicity" (omitStr m.accrualPeriodicity) (by decide +kernel) (by decide +kernel) rfl,
    g b!"citations" (putList (ptr Citation.enc) m.citations) (by decide +kernel) (by decide +kernel) rfl, g b!"contributors" (putList (ptr User.enc) m.contributors) (by decide +kernel) (by decide +kernel) rfl,
    g b!"description" (omitStr m.description) (by decide +kernel) (by decide +kernel) rfl, g b!"downloadURL" (omitStr m.downloadURL) (by decide +kernel) (by decide +kernel) rfl,
    g b!"homeURL" (omitStr m.homeURL) (by decide +kernel) (by decide +kernel) rfl, g b!"identifier" (omitStr m.identifier) (by decide +kernel) (by decide +kernel) rfl,
    g b!"keywords" (putList .str m.keywords) (by decide +kernel) (by decide +kernel) rfl, g b!"language" (putList .str m.language) (by decide +kernel) (by decide +kernel) rfl,
    g b!"license" (m.license.map License.enc) (by decide +kernel) (by decide +kernel) rfl, g b!"path" (omitStr m.path) (by decide +kernel) (by decide +kernel) rfl,
    g b!"qri" (some (.str kindMeta)) (by decide +kernel) (by decide +kernel) rfl, g b!"readmeURL" (omitStr m.readmeURL) (by decide +kernel) (by decide +kernel) rfl,
    g b!"title" (omitStr m.title) (by decide +kernel) (by decide +kernel) rfl, g b!"theme" (putList .str m.theme) (by decide +kernel) (by decide +kernel) rfl,
    g b!"version" (omitStr m.version) (by decide +kernel) (by decide +kernel) rfl]
  simp only [decStr_omit, decStr_one, decCitations_put, decContributors_put, decStrs_put, decLicense_omit, bind_ok, pure_ok]
  have : metaReserved.foldl mapDel (putFields (m.arbitrary.getD []) m.fields) = m.rest := rfl
  rw [this, if_pos hj]

theorem mapGet_foldDel {α : Type} (ks : List Bytes) {m : List (Bytes × α)} (h : KeysSorted m) (k : Bytes) :
    mapGet (ks.foldl mapDel m) k = if k ∈ ks then none else mapGet m k := by
  induction ks generalizing m with
  | nil => simp
  | cons a ks ih =>
    rw [List.foldl_cons, ih (keysSorted_mapDel a h)]
    by_cases hk : k ∈ ks
    · simp [hk]
    · by_cases e : k = a
      · subst e; simp [hk, mapGet_mapDel_self h]
      · simp [hk, e, mapGet_mapDel_ne m e]

theorem keysSorted_foldDel {α : Type} (ks : List Bytes) {m : List (Bytes × α)} (h : KeysSorted m) : KeysSorted (ks.foldl mapDel m) := by
  induction ks generalizing m with
  | nil => exact h
  | cons a ks ih => exact ih (keysSorted_mapDel a h)

/-- what stays: the arbitrary entries that are not reserved, and the keywords -/
theorem mapGet_rest (m : Meta) (hs : KeysSorted (m.arbitrary.getD [])) (k : Bytes) :
    mapGet m.rest k = if k ∈ metaReserved then none
      else if k = b!"keywords" then (putList .str m.keywords).or (mapGet (m.arbitrary.getD []) k)
      else mapGet (m.arbitrary.getD []) k := by
  unfold Meta.rest
  have hnd : (m.fields.map (·.1)).Nodup := by
    show [b!"qri", b!"accessURL", b!"citations", b!"contributors", b!"description", b!"downloadURL", b!"homeURL",
      b!"identifier", b!"keywords", b!"language", b!"license", b!"path", b!"readmeURL", b!"theme", b!"title", b!"accrualPeriodicity",
      b!"version"].Nodup
    decide +kernel
  rw [mapGet_foldDel _ (keysSorted_putFields m.fields hs), mapGet_putFields _ _ hnd]
  by_cases hr : k ∈ metaReserved
  · simp [hr]
  · rw [if_neg hr, if_neg hr]
    by_cases hk : k = b!"keywords"
    · rw [if_pos hk]; subst hk; rfl
    · rw [if_neg hk]
      have : lookupF m.fields k = none := by
        unfold lookupF
        have hf : m.fields.find? (fun f => f.1 = k) = none := by
          rw [List.find?_eq_none]
          intro x hx e
          have hxk : x.1 = k := by simpa using e
          have hmem : k ∈ m.fields.map (·.1) := hxk ▸ List.mem_map_of_mem hx
          have hall : ∀ n ∈ [b!"qri", b!"accessURL", b!"citations", b!"contributors", b!"description", b!"downloadURL", b!"homeURL",
            b!"identifier", b!"keywords", b!"language", b!"license", b!"path", b!"readmeURL", b!"theme", b!"title", b!"accrualPeriodicity",
            b!"version"], n ∈ metaReserved ∨ n = b!"keywords" := by decide +kernel
          rcases hall k hmem with h | h
          · exact hr h
          · exact hk h
        rw [hf]; rfl
      rw [this]; rfl

theorem isJsonM_iff (m : List (Bytes × Val)) : isJsonM m = true ↔ ∀ x ∈ m, isJson x.2 = true := by
  induction m with
  | nil => simp [isJsonM]
  | cons x m ih => obtain ⟨k, v⟩ := x; simp only [isJsonM, Bool.and_eq_true, ih]; simp

theorem isJsonL_str (l : List Bytes) : isJsonL (l.map Val.str) = true := by
  induction l with
  | nil => rfl
  | cons x l ih => simp [isJsonL, isJson, ih]

theorem rest_json (m : Meta) (hs : KeysSorted (m.arbitrary.getD [])) (hj : isJsonM (m.arbitrary.getD []) = true) : isJsonM m.rest = true := by
  rw [isJsonM_iff] at hj ⊢
  intro x hx
  have hsr : KeysSorted m.rest := keysSorted_foldDel _ (keysSorted_putFields m.fields hs)
  have h1 := (map_get_mem hsr (k := x.1) (v := x.2)).mpr hx
  rw [mapGet_rest m hs] at h1
  split at h1
  · cases h1
  · split at h1
    · cases hk : m.keywords with
      | none =>
        rw [hk] at h1
        exact hj _ ((map_get_mem hs).mp h1)
      | some l =>
        rw [hk] at h1
        simp only [putList, Option.map_some, Option.some_or, Option.some.injEq] at h1
        rw [← h1]; exact isJsonL_str l
    · exact hj _ ((map_get_mem hs).mp h1)

end Verif.Doc
