import Verif.Lemmas.Sign
/-
C01: the signing bytes of a dataset (dataset.go:184-233).
-/
namespace Verif.Doc

/-- every string that `SigningBytes` writes out -/
def Dataset.signedStrings (d : Dataset) : List Bytes :=
  [d.id, d.bodyPath, (d.meta_.map Meta.path).getD [], (d.readme.map Readme.path).getD [],
   (d.structure_.map Structure.path).getD [], (d.transform.map Transform.path).getD [],
   (d.stats.map Stats.path).getD [], (d.viz.map Viz.path).getD []]

/-- the instant of the commit, to the second; absent without a commit or with the zero time -/
def Dataset.commitSecond (d : Dataset) : Option Time :=
  match d.commit with
  | none => none
  | some c => if c.timestamp = {} then none else some c.timestamp.toSecond

/-- a dataset whose strings have no newline and whose commit time is a real one -/
def Dataset.Signable (d : Dataset) : Prop :=
  (∀ s ∈ d.signedStrings, (10 : UInt8) ∉ s) ∧ ∀ c, d.commit = some c → c.timestamp.Valid

theorem tagLine_ok {tag v : Bytes} (h : (10 : UInt8) ∉ tag ++ v) (ht : tag ≠ []) : ∀ l ∈ tagLine tag v, 10 ∉ l ∧ l ≠ [] := by
  intro l hl
  unfold tagLine at hl
  split at hl
  · simp at hl
  · simp at hl; subst hl; exact ⟨h, by simp [ht]⟩

theorem timeText_noNL (d : Dataset) : (10 : UInt8) ∉ d.timeText := by
  unfold Dataset.timeText
  split
  · split
    · simp
    · exact rfc3339_noNL _
  · simp

theorem sigLines_ok {d : Dataset} (h : ∀ s ∈ d.signedStrings, (10 : UInt8) ∉ s) : ∀ l ∈ d.sigLines, 10 ∉ l ∧ l ≠ [] := by
  simp only [Dataset.signedStrings, List.mem_cons, List.not_mem_nil, or_false, forall_eq_or_imp, forall_eq] at h
  obtain ⟨h1, h2, h3, h4, h5, h6, h7, h8⟩ := h
  intro l hl
  rw [sigLines_tag] at hl
  simp only [List.mem_append] at hl
  rcases hl with (((((((hl | hl) | hl) | hl) | hl) | hl) | hl) | hl) | hl <;>
    refine tagLine_ok ?_ (by decide) l hl <;>
    first
      | (simp only [List.mem_append, not_or]; exact ⟨by decide, by assumption⟩)
      | (simp only [List.mem_append, not_or]; exact ⟨by decide, timeText_noNL d⟩)

/-- reading one field back out of the lines -/
theorem lineOf_sigLines (d : Dataset) :
    lineOf b!"id:" d.sigLines = d.id ∧ lineOf b!"bd:" d.sigLines = d.bodyPath ∧
    lineOf b!"cm:" d.sigLines = d.timeText ∧
    lineOf b!"md:" d.sigLines = (d.meta_.map Meta.path).getD [] ∧
    lineOf b!"rm:" d.sigLines = (d.readme.map Readme.path).getD [] ∧
    lineOf b!"st:" d.sigLines = (d.structure_.map Structure.path).getD [] ∧
    lineOf b!"tf:" d.sigLines = (d.transform.map Transform.path).getD [] ∧
    lineOf b!"sa:" d.sigLines = (d.stats.map Stats.path).getD [] ∧
    lineOf b!"vz:" d.sigLines = (d.viz.map Viz.path).getD [] := by
  rw [sigLines_tag]
  simp only [lineOf_append]
  refine ⟨?_, ?_, ?_, ?_, ?_, ?_, ?_, ?_, ?_⟩ <;>
    simp [lineOf_same, lineOf_other]

theorem timeText_inj {d e : Dataset} (hd : ∀ c, d.commit = some c → c.timestamp.Valid)
    (he : ∀ c, e.commit = some c → c.timestamp.Valid) (h : d.timeText = e.timeText) : d.commitSecond = e.commitSecond := by
  unfold Dataset.timeText at h
  unfold Dataset.commitSecond
  cases hc : d.commit with
  | none =>
    cases hc' : e.commit with
    | none => rfl
    | some c' =>
      simp only [hc, hc', Time.isZero, decide_eq_true_eq] at h
      by_cases hz : c'.timestamp = {}
      · simp [hz]
      · rw [if_neg hz] at h; exact absurd h.symm (rfc3339_ne_nil _)
  | some c =>
    cases hc' : e.commit with
    | none =>
      simp only [hc, hc', Time.isZero, decide_eq_true_eq] at h
      by_cases hz : c.timestamp = {}
      · simp [hz]
      · rw [if_neg hz] at h; exact absurd h (rfc3339_ne_nil _)
    | some c' =>
      simp only [hc, hc', Time.isZero, decide_eq_true_eq] at h
      by_cases hz : c.timestamp = {} <;> by_cases hz' : c'.timestamp = {}
      · simp [hz, hz']
      · rw [if_pos hz, if_neg hz'] at h; exact absurd h.symm (rfc3339_ne_nil _)
      · rw [if_neg hz, if_pos hz'] at h; exact absurd h (rfc3339_ne_nil _)
      · rw [if_neg hz, if_neg hz'] at h
        simp only [hz, hz', if_false]
        rw [rfc3339_inj (hd c hc) (he c' hc') h]

/-- **C01**. Equal signing bytes mean the same id, body path, commit second and component paths,
provided no signed string contains a newline. -/
theorem C01_signingBytes_injective (d e : Dataset) (hd : d.Signable) (he : e.Signable)
    (h : d.signingBytes = e.signingBytes) :
    d.id = e.id ∧ d.bodyPath = e.bodyPath ∧ d.commitSecond = e.commitSecond ∧
    (d.meta_.map Meta.path).getD [] = (e.meta_.map Meta.path).getD [] ∧
    (d.readme.map Readme.path).getD [] = (e.readme.map Readme.path).getD [] ∧
    (d.structure_.map Structure.path).getD [] = (e.structure_.map Structure.path).getD [] ∧
    (d.transform.map Transform.path).getD [] = (e.transform.map Transform.path).getD [] ∧
    (d.stats.map Stats.path).getD [] = (e.stats.map Stats.path).getD [] ∧
    (d.viz.map Viz.path).getD [] = (e.viz.map Viz.path).getD [] := by
  have hl : d.sigLines = e.sigLines := joinLines_inj (sigLines_ok hd.1) (sigLines_ok he.1) h
  obtain ⟨a1, a2, a3, a4, a5, a6, a7, a8, a9⟩ := lineOf_sigLines d
  obtain ⟨b1, b2, b3, b4, b5, b6, b7, b8, b9⟩ := lineOf_sigLines e
  rw [hl] at a1 a2 a3 a4 a5 a6 a7 a8 a9
  exact ⟨a1.symm.trans b1, a2.symm.trans b2, timeText_inj hd.2 he.2 (a3.symm.trans b3), a4.symm.trans b4,
    a5.symm.trans b5, a6.symm.trans b6, a7.symm.trans b7, a8.symm.trans b8, a9.symm.trans b9⟩

/-- The converse: the signing bytes depend on nothing else. -/
theorem C01_signingBytes_determined (d e : Dataset)
    (hs : d.signedStrings = e.signedStrings) (ht : d.commitSecond = e.commitSecond) :
    d.signingBytes = e.signingBytes := by
  have htt : d.timeText = e.timeText := by
    unfold Dataset.commitSecond at ht
    unfold Dataset.timeText
    have key : ∀ t u : Time, t.toSecond = u.toSecond → rfc3339 t = rfc3339 u := by
      intro t u h
      have : rfc3339 t.toSecond = rfc3339 u.toSecond := by rw [h]
      exact this
    cases hc : d.commit with
    | none =>
      cases hc' : e.commit with
      | none => rfl
      | some c' =>
        simp only [hc, hc'] at ht
        by_cases hz : c'.timestamp = {}
        · simp [Time.isZero, hz]
        · rw [if_neg hz] at ht; cases ht
    | some c =>
      cases hc' : e.commit with
      | none =>
        simp only [hc, hc'] at ht
        by_cases hz : c.timestamp = {}
        · simp [Time.isZero, hz]
        · rw [if_neg hz] at ht; cases ht
      | some c' =>
        simp only [hc, hc'] at ht
        by_cases hz : c.timestamp = {} <;> by_cases hz' : c'.timestamp = {}
        · simp [Time.isZero, hz, hz']
        · rw [if_pos hz, if_neg hz'] at ht; cases ht
        · rw [if_neg hz, if_pos hz'] at ht; cases ht
        · rw [if_neg hz, if_neg hz'] at ht
          simp only [Time.isZero, hz, hz', decide_false]
          exact key _ _ (Option.some.inj ht)
  simp only [Dataset.signedStrings, List.cons.injEq] at hs
  obtain ⟨h1, h2, h3, h4, h5, h6, h7, h8, _⟩ := hs
  rw [Dataset.signingBytes, Dataset.signingBytes, sigLines_tag, sigLines_tag, h1, h2, h3, h4, h5, h6, h7, h8, htt]

/-- Without the newline restriction it is false: a body path can pretend to be a meta line. -/
theorem C01_newline_forges : ∃ d e : Dataset, d.signingBytes = e.signingBytes ∧
    (d.meta_.map Meta.path).getD [] ≠ (e.meta_.map Meta.path).getD [] ∧ d.bodyPath ≠ e.bodyPath :=
  ⟨{ bodyPath := b!"/a\nmd:/b" }, { bodyPath := b!"/a", meta_ := some { path := b!"/b" } }, by decide +kernel⟩

/-- The comment at dataset.go:177 promises nanoseconds; two commits in the same second are not told apart. -/
theorem C01_nanoseconds_not_signed : ∃ d e : Dataset, d.Signable ∧ e.Signable ∧ d.signingBytes = e.signingBytes ∧
    (d.commit.map Commit.timestamp) ≠ (e.commit.map Commit.timestamp) := by
  refine ⟨{ commit := some { timestamp := { year := 2001, nanos := 1 } } },
    { commit := some { timestamp := { year := 2001, nanos := 2 } } }, ⟨by decide +kernel, ?_⟩, ⟨by decide +kernel, ?_⟩,
    by decide +kernel, by decide +kernel⟩ <;>
  · intro c hc; simp only [Option.some.injEq] at hc; subst hc; decide +kernel

/-- `SignableBytes` determines the commit second and the structure checksum, newlines or not. -/
theorem C01_signableBytes_injective (d e : Dataset) (c c' : Commit) (s s' : Structure)
    (hc : d.commit = some c) (hs : d.structure_ = some s) (hc' : e.commit = some c') (hs' : e.structure_ = some s')
    (hv : c.timestamp.Valid) (hv' : c'.timestamp.Valid) (h : d.signableBytes = e.signableBytes) :
    c.timestamp.toSecond = c'.timestamp.toSecond ∧ s.checksum = s'.checksum := by
  simp only [Dataset.signableBytes, hc, hs, hc', hs', Option.some.injEq] at h
  have := append_sep_inj (rfc3339_noNL _) (rfc3339_noNL _) h
  exact ⟨rfc3339_inj hv hv' this.1, this.2⟩

/-- `SignableBytes` fails exactly when the commit or the structure is missing. -/
theorem C01_signableBytes_error_iff (d : Dataset) : d.signableBytes = none ↔ d.commit = none ∨ d.structure_ = none := by
  unfold Dataset.signableBytes
  cases d.commit <;> cases d.structure_ <;> simp

def exSign : Dataset :=
  { id := b!"abc", bodyPath := b!"/ipfs/Q1", commit := some { timestamp := { year := 2001, month := 2, day := 3, hour := 4, nanos := 7 } },
    meta_ := some { path := b!"/ipfs/Q2" }, viz := some { path := b!"/v" }, structure_ := some { checksum := b!"Qm" } }

example : exSign.Signable := by
  refine ⟨by decide +kernel, ?_⟩
  intro c hc; simp only [exSign, Option.some.injEq] at hc; subst hc; decide +kernel
example : exSign.signingBytes = b!"id:abc\nbd:/ipfs/Q1\ncm:2001-02-03T04:00:00Z\nmd:/ipfs/Q2\nvz:/v" := by decide +kernel
example : exSign.signableBytes = some b!"2001-02-03T04:00:00Z\nQm" := by decide +kernel
example : ({ exSign with viz := some { path := b!"/w" } } : Dataset).signingBytes ≠ exSign.signingBytes := by decide +kernel

end Verif.Doc
