import Verif.Props.Golden
import Verif.Props.Recognised
import Verif.Props.Config
/-
C85: test cases read from directories; detection and step files from a path.
-/
set_option autoImplicit false
namespace Verif.Disk
open Verif.Doc

/-! ### What there is on disk -/

/-- nothing that can be opened -/
def Missing (n : Node) : Prop := n = .absent ∨ n = .denied

/-- a file that can be read to the end -/
def Holds (n : Node) (data : Bytes) : Prop := n = .file data false

/-- the body file of a directory: of the first format, in the order CBOR, JSON, CSV, XLSX, NDJSON, that has a file that can be opened -/
def BodyOf (disk : Disk) (dir : Bytes) (name : Bytes) (n : Node) : Prop :=
  ∃ pre df post, [Names.DataFormat.cbor, .json, .csv, .xlsx, .ndjson] = pre ++ df :: post ∧
    (∀ x ∈ pre, Missing (disk (inDir dir (b!"body." ++ x.string)))) ∧ name = b!"body." ++ df.string ∧ n = disk (inDir dir name) ∧ ¬ Missing n

/-- no body file -/
def NoBody (disk : Disk) (dir : Bytes) : Prop :=
  ∀ x ∈ [Names.DataFormat.cbor, .json, .csv, .xlsx, .ndjson], Missing (disk (inDir dir (b!"body." ++ x.string)))

/-- a dataset file is absent, or holds a dataset -/
def DatasetAt (F : FloatCodec) (n : Node) (o : Option Dataset) : Prop :=
  (n = .absent ∧ o = none) ∨ ∃ data d, Holds n data ∧ DocText.read (DocText.dataset F) data = .ok d ∧ o = some d

/-- a script is missing, or can be read -/
def ScriptAt (n : Node) (o : Option Bytes) : Prop := (Missing n ∧ o = none) ∨ ∃ data, Holds n data ∧ o = some data

/-- a body is missing, or can be read -/
def BodyAt (disk : Disk) (dir : Bytes) (o : Option (Bytes × Bytes)) : Prop :=
  (NoBody disk dir ∧ o = none) ∨ ∃ name n data, BodyOf disk dir name n ∧ Holds n data ∧ o = some (name, data)

theorem open_cases (n : Node) : (n.open_ = none ↔ Missing n) ∧ (∀ d, n.open_ = some (d, false) ↔ Holds n d) := by
  unfold Node.open_ Missing Holds
  cases n <;> simp

theorem script_iff (disk : Disk) (dir name : Bytes) :
    (readScript disk dir name = .none ↔ Missing (disk (inDir dir name))) ∧
    ∀ m d, readScript disk dir name = .found m d ↔ m = name ∧ Holds (disk (inDir dir name)) d := by
  obtain ⟨h1, h2⟩ := open_cases (disk (inDir dir name))
  unfold readScript
  cases ho : (disk (inDir dir name)).open_ with
  | none => simp [h1.1 ho, ← h2, ho]
  | some p =>
    obtain ⟨d, b⟩ := p
    cases b <;> simp [← h1, ← h2, ho, eq_comm]

theorem body_iff (disk : Disk) (dir : Bytes) : ∀ l : List Names.DataFormat,
    (readBody disk dir l = .none ↔ ∀ x ∈ l, Missing (disk (inDir dir (b!"body." ++ x.string)))) ∧
    ∀ m d, readBody disk dir l = .found m d ↔ ∃ pre df post, l = pre ++ df :: post ∧
      (∀ x ∈ pre, Missing (disk (inDir dir (b!"body." ++ x.string)))) ∧ m = b!"body." ++ df.string ∧ Holds (disk (inDir dir m)) d := by
  intro l
  induction l with
  | nil => simp [readBody]
  | cons df l ih =>
    obtain ⟨h1, h2⟩ := open_cases (disk (inDir dir (bodyName df)))
    unfold readBody
    cases ho : (disk (inDir dir (bodyName df))).open_ with
    | none =>
      have hm := h1.1 ho
      refine ⟨?_, ?_⟩
      · rw [ih.1]; simp; intro _; exact hm
      · intro m d
        rw [ih.2]
        constructor
        · rintro ⟨pre, df', post, rfl, e2, e3, e4⟩
          exact ⟨df :: pre, df', post, rfl, by intro x hx; rcases List.mem_cons.1 hx with rfl | hx; exact hm; exact e2 x hx, e3, e4⟩
        · rintro ⟨pre, df', post, e1, e2, e3, e4⟩
          cases pre with
          | nil =>
            cases e1
            subst e3
            have := (h2 d).2 e4
            rw [ho] at this; cases this
          | cons a pre => cases e1; exact ⟨pre, df', post, rfl, fun x hx => e2 x (.tail _ hx), e3, e4⟩
    | some p =>
      obtain ⟨d, b⟩ := p
      have hm : ¬ Missing (disk (inDir dir (bodyName df))) := by rw [← h1, ho]; simp
      have hp : ∀ (pre post : List Names.DataFormat) (df' : Names.DataFormat), df :: l = pre ++ df' :: post →
          (∀ x ∈ pre, Missing (disk (inDir dir (b!"body." ++ x.string)))) → df' = df := by
        intro pre post df' e1 e2
        cases pre with
        | nil => cases e1; rfl
        | cons a pre => cases e1; exact absurd (e2 _ (.head _)) hm
      cases b with
      | false =>
        refine ⟨by simp; intro h; exact absurd h hm, ?_⟩
        intro m d'
        simp only [Part.found.injEq]
        constructor
        · rintro ⟨rfl, rfl⟩; exact ⟨[], df, l, rfl, nofun, rfl, (h2 _).1 ho⟩
        · rintro ⟨pre, df', post, e1, e2, e3, e4⟩
          obtain rfl := hp pre post df' e1 e2
          subst e3
          have := (h2 d').2 e4
          rw [ho] at this; cases this
          exact ⟨rfl, rfl⟩
      | true =>
        refine ⟨by simp; intro h; exact absurd h hm, ?_⟩
        intro m d'
        refine ⟨nofun, ?_⟩
        rintro ⟨pre, df', post, e1, e2, e3, e4⟩
        obtain rfl := hp pre post df' e1 e2
        subst e3
        have := (h2 d').2 e4
        rw [ho] at this; cases this

theorem dataset_iff (F : FloatCodec) (disk : Disk) (dir name : Bytes) :
    (readDataset F disk dir name = .none ↔ disk (inDir dir name) = .absent) ∧
    ∀ d, readDataset F disk dir name = .found d ↔ ∃ data, Holds (disk (inDir dir name)) data ∧ DocText.read (DocText.dataset F) data = .ok d := by
  unfold readDataset Node.readFile Holds
  cases disk (inDir dir name) with
  | file data b =>
    cases b with
    | true => simp
    | false =>
      cases hr : DocText.read (DocText.dataset F) data with
      | error e => simp [hr]
      | ok d => simp [hr]
  | _ => simp

/-! ### Test cases -/

/-- what a directory has for a test case: input and expected dataset, body, and scripts -/
structure Parts where
  input : Option Dataset
  expect : Option Dataset
  /-- name and bytes -/
  body : Option (Bytes × Bytes)
  transform : Option Bytes
  viz : Option Bytes
  readme : Option Bytes

/-- a directory has these parts: datasets that are absent or can be read and parsed; a body and scripts that cannot be opened, or can be read -/
structure Has (F : FloatCodec) (disk : Disk) (dir : Bytes) (p : Parts) : Prop where
  input : DatasetAt F (disk (inDir dir b!"input.dataset.json")) p.input
  expect : DatasetAt F (disk (inDir dir b!"expect.dataset.json")) p.expect
  body : BodyAt disk dir p.body
  transform : ScriptAt (disk (inDir dir b!"transform.star")) p.transform
  viz : ScriptAt (disk (inDir dir b!"template.html")) p.viz
  readme : ScriptAt (disk (inDir dir b!"readme.md")) p.readme

/-- nothing at all -/
def Parts.nothing (p : Parts) : Prop := p = ⟨none, none, none, none, none, none⟩

/-- a part as it is read -/
def PartIs (p : Part) : Option (Bytes × Bytes) → Prop
  | none => p = .none
  | some (n, d) => p = .found n d

/-- the test case and the files with a part -/
def put (memName : Bytes → Bytes) (set : TestCase → Bytes → Bytes → File → TestCase) : Option (Bytes × Bytes) → TestCase × Files.World → TestCase × Files.World
  | none, s => s
  | some (n, d), (tc, w) => (set tc n d w.length, w ++ [{ name := memName n, rest := d }])

theorem optional_eq {p : Part} {o : Option (Bytes × Bytes)} (h : PartIs p o) (e : CaseErr) (memName : Bytes → Bytes)
    (set : TestCase → Bytes → Bytes → File → TestCase) (tc : TestCase) (b : Bool) (w : Files.World) :
    optional p e memName set (tc, b, w) = .ok ((put memName set o (tc, w)).1, b || o.isSome, (put memName set o (tc, w)).2) := by
  cases o with
  | none => rw [PartIs] at h; subst h; simp [optional, put]
  | some x => obtain ⟨n, d⟩ := x; rw [PartIs] at h; subst h; simp [optional, put, Files.memfile]

theorem optional_ok {p : Part} {e : CaseErr} {memName : Bytes → Bytes} {set : TestCase → Bytes → Bytes → File → TestCase} {s s' : Making}
    (h : optional p e memName set s = .ok s') : ∃ o, PartIs p o := by
  obtain ⟨tc, b, w⟩ := s
  cases p with
  | none => exact ⟨none, rfl⟩
  | failed => simp [optional] at h
  | found n d => exact ⟨some (n, d), rfl⟩

theorem script_part (disk : Disk) (dir name : Bytes) (o : Option Bytes) :
    PartIs (readScript disk dir name) (o.map fun d => (name, d)) ↔ ScriptAt (disk (inDir dir name)) o := by
  obtain ⟨h1, h2⟩ := script_iff disk dir name
  unfold ScriptAt
  cases o with
  | none => simp [PartIs, h1]
  | some d => simp [PartIs, h2]

theorem body_part (disk : Disk) (dir : Bytes) (o : Option (Bytes × Bytes)) : PartIs (readBody disk dir supported) o ↔ BodyAt disk dir o := by
  obtain ⟨h1, h2⟩ := body_iff disk dir supported
  unfold BodyAt
  cases o with
  | none =>
    simp only [PartIs, and_true, reduceCtorEq, and_false, exists_false, or_false]
    exact h1
  | some x =>
    obtain ⟨m, d⟩ := x
    simp only [PartIs, h2, BodyOf]
    constructor
    · rintro ⟨pre, df, post, e1, e2, e3, e4⟩
      refine .inr ⟨m, _, d, ⟨pre, df, post, e1, e2, e3, rfl, ?_⟩, e4, rfl⟩
      rw [Holds] at e4; rw [e4]; simp [Missing]
    · rintro (⟨_, h⟩ | ⟨m', n, d', ⟨pre, df, post, e1, e2, e3, e4, _⟩, e5, e6⟩)
      · cases h
      · cases e6; subst e4; exact ⟨pre, df, post, e1, e2, e3, e5⟩

def DsIs (r : ReadDs) : Option Dataset → Prop
  | none => r = .none
  | some d => r = .found d

theorem dataset_part (F : FloatCodec) (disk : Disk) (dir name : Bytes) (o : Option Dataset) :
    DsIs (readDataset F disk dir name) o ↔ DatasetAt F (disk (inDir dir name)) o := by
  obtain ⟨h1, h2⟩ := dataset_iff F disk dir name
  unfold DatasetAt
  cases o with
  | none => simp [DsIs, h1]
  | some d => simp [DsIs, h2]

/-- an open file that delivers these bytes -/
def Delivers (w : Files.World) (f : Option File) (name data : Bytes) : Prop := ∃ i, f = some i ∧ w[i]? = some { name, rest := data }

/-- the whole of `newTestCase` -/
theorem case_eq {F : FloatCodec} {disk : Disk} {dir : Bytes} {p : Parts} (h : Has F disk dir p) (w : Files.World) :
    newTestCase F disk dir w =
      let s := ({ path := dir, name := base dir, input := { p.input.getD {} with name := base dir } }, w)
      let s := put (47 :: ·) setBody p.body s
      let s := put id setTransform (p.transform.map fun d => (b!"transform.star", d)) s
      let s := put id setViz (p.viz.map fun d => (b!"template.html", d)) s
      let s := put id setReadme (p.readme.map fun d => (b!"readme.md", d)) s
      if p.input.isSome || p.body.isSome || p.transform.isSome || p.viz.isSome || p.readme.isSome || p.expect.isSome then
        .ok ({ s.1 with expect := p.expect }, s.2)
      else .error .noData := by
  have hb := (body_part disk dir p.body).2 h.body
  have ht := (script_part disk dir _ p.transform).2 h.transform
  have hv := (script_part disk dir _ p.viz).2 h.viz
  have hr := (script_part disk dir _ p.readme).2 h.readme
  have hi := (dataset_part F disk dir _ p.input).2 h.input
  have he := (dataset_part F disk dir _ p.expect).2 h.expect
  have hs : startCase F disk dir w = .ok ({ path := dir, name := base dir, input := { p.input.getD {} with name := base dir } }, p.input.isSome, w) := by
    unfold startCase
    cases hp : p.input with
    | none => rw [hp, DsIs] at hi; rw [hi]; rfl
    | some d => rw [hp, DsIs] at hi; rw [hi]; rfl
  have hend : ∀ (tc : TestCase) (b : Bool) (w : Files.World), tc.expect = none → endCase F disk dir (tc, b, w) =
      if b || p.expect.isSome then .ok ({ tc with expect := p.expect }, w) else .error .noData := by
    intro tc b w htc
    unfold endCase
    cases hp : p.expect with
    | none =>
      rw [hp, DsIs] at he; rw [he]
      have : ({ tc with expect := none } : TestCase) = tc := by rw [← htc]
      simp [this]
    | some d => rw [hp, DsIs] at he; rw [he]; simp
  have hex : ∀ (m : Bytes → Bytes) (o : Option (Bytes × Bytes)) (s : TestCase × Files.World), s.1.expect = none →
      (put m setBody o s).1.expect = none ∧ (put m setTransform o s).1.expect = none ∧ (put m setViz o s).1.expect = none ∧ (put m setReadme o s).1.expect = none := by
    intro m o s hs
    cases o with
    | none => exact ⟨hs, hs, hs, hs⟩
    | some x => exact ⟨hs, hs, hs, hs⟩
  unfold newTestCase
  simp only [hs, bind, Except.bind, optional_eq hb, optional_eq ht, optional_eq hv, optional_eq hr]
  rw [hend]
  · simp only [Option.isSome_map]
  · exact (hex _ _ _ ((hex _ _ _ ((hex _ _ _ (hex _ _ _ rfl).1).2.1)).2.2.1)).2.2.2

/-- **C85** A directory is a test case exactly if its datasets are absent or can be read, its body and scripts are missing or can be read,
and there is at least one of them. -/
theorem C85_loads (F : FloatCodec) (disk : Disk) (dir : Bytes) (w : Files.World) :
    (∃ r, newTestCase F disk dir w = .ok r) ↔ ∃ p, Has F disk dir p ∧ ¬ p.nothing := by
  constructor
  · rintro ⟨r, hr⟩
    have hp : ∃ p, Has F disk dir p := by
      unfold newTestCase at hr
      simp only [bind, Except.bind] at hr
      cases h0 : startCase F disk dir w with
      | error e => rw [h0] at hr; cases hr
      | ok s0 =>
        simp only [h0] at hr
        cases h1 : optional (readBody disk dir supported) .body (47 :: ·) setBody s0 with
        | error e => rw [h1] at hr; cases hr
        | ok s1 =>
          simp only [h1] at hr
          cases h2 : optional (readScript disk dir b!"transform.star") .transform id setTransform s1 with
          | error e => rw [h2] at hr; cases hr
          | ok s2 =>
            simp only [h2] at hr
            cases h3 : optional (readScript disk dir b!"template.html") .viz id setViz s2 with
            | error e => rw [h3] at hr; cases hr
            | ok s3 =>
              simp only [h3] at hr
              cases h4 : optional (readScript disk dir b!"readme.md") .readme id setReadme s3 with
              | error e => rw [h4] at hr; cases hr
              | ok s4 =>
                simp only [h4] at hr
                have hsc : ∀ name o, PartIs (readScript disk dir name) o → ∃ o', ScriptAt (disk (inDir dir name)) o' := by
                  intro name o ho
                  cases o with
                  | none => exact ⟨none, (script_part disk dir name none).1 ho⟩
                  | some x =>
                    obtain ⟨n, d⟩ := x
                    have hn := ((script_iff disk dir name).2 n d).1 ho
                    exact ⟨some d, .inr ⟨d, hn.2, rfl⟩⟩
                have hds : ∀ name, readDataset F disk dir name ≠ .failed → ∃ o, DatasetAt F (disk (inDir dir name)) o := by
                  intro name hn
                  cases hd : readDataset F disk dir name with
                  | none => exact ⟨none, (dataset_part F disk dir name none).1 hd⟩
                  | failed => exact absurd hd hn
                  | found d => exact ⟨some d, (dataset_part F disk dir name (some d)).1 hd⟩
                obtain ⟨i, hi⟩ := hds b!"input.dataset.json" (by intro e; rw [startCase, e] at h0; cases h0)
                obtain ⟨x, hx⟩ := hds b!"expect.dataset.json" (by intro e; rw [endCase, e] at hr; cases hr)
                obtain ⟨b, hb⟩ := optional_ok h1
                obtain ⟨t, ht⟩ := optional_ok h2
                obtain ⟨v, hv⟩ := optional_ok h3
                obtain ⟨m, hm⟩ := optional_ok h4
                obtain ⟨t, ht⟩ := hsc _ t ht
                obtain ⟨v, hv⟩ := hsc _ v hv
                obtain ⟨m, hm⟩ := hsc _ m hm
                exact ⟨⟨i, x, b, t, v, m⟩, hi, hx, (body_part disk dir b).1 hb, ht, hv, hm⟩
    obtain ⟨p, hp⟩ := hp
    refine ⟨p, hp, fun hn => ?_⟩
    rw [case_eq hp w, hn] at hr
    simp at hr
  · rintro ⟨p, hp, hn⟩
    rw [case_eq hp w]
    simp only
    split
    · exact ⟨_, rfl⟩
    · rename_i h
      refine absurd ?_ hn
      obtain ⟨i, e, b, t, v, r⟩ := p
      simp at h
      simp [Parts.nothing, h]

/-- What a test case is then: named after its directory, as its input dataset is; with the bytes and file names of body and scripts, or
none; and the input dataset has them as files, in components that are made if there are none, and is otherwise as it was read. Files
that were there before stay as they are. -/
theorem C85_case (F : FloatCodec) (disk : Disk) (dir : Bytes) (w : Files.World) (p : Parts) (hp : Has F disk dir p) (hn : ¬ p.nothing) :
    ∃ tc l, newTestCase F disk dir w = .ok (tc, w ++ l) ∧
      tc.path = dir ∧ tc.name = base dir ∧ tc.expect = p.expect ∧
      tc.body = p.body.map (·.2) ∧ tc.bodyFilename = (p.body.map (·.1)).getD [] ∧
      tc.transformScript = p.transform ∧ tc.transformScriptFilename = (if p.transform = none then [] else b!"transform.star") ∧
      tc.vizScript = p.viz ∧ tc.vizScriptFilename = (if p.viz = none then [] else b!"template.html") ∧
      tc.readmeScript = p.readme ∧ tc.readmeScriptFilename = (if p.readme = none then [] else b!"readme.md") ∧
      (∀ n d, p.body = some (n, d) → Delivers (w ++ l) tc.input.bodyFile (47 :: n) d) ∧
      (∀ d, p.transform = some d → ∃ q, tc.input.transform = some q ∧ Delivers (w ++ l) q.scriptFile b!"transform.star" d ∧
        { q with scriptFile := none } = { (p.input.getD {}).transform.getD {} with scriptFile := none }) ∧
      (∀ d, p.viz = some d → ∃ q, tc.input.viz = some q ∧ Delivers (w ++ l) q.scriptFile b!"template.html" d ∧
        { q with scriptFile := none } = { (p.input.getD {}).viz.getD {} with scriptFile := none }) ∧
      (∀ d, p.readme = some d → ∃ q, tc.input.readme = some q ∧ Delivers (w ++ l) q.scriptFile b!"readme.md" d ∧
        { q with scriptFile := none } = { (p.input.getD {}).readme.getD {} with scriptFile := none }) ∧
      (p.body = none → tc.input.bodyFile = (p.input.getD {}).bodyFile) ∧
      (p.transform = none → tc.input.transform = (p.input.getD {}).transform) ∧
      (p.viz = none → tc.input.viz = (p.input.getD {}).viz) ∧
      (p.readme = none → tc.input.readme = (p.input.getD {}).readme) ∧
      tc.input.name = base dir ∧
      { tc.input with name := [], bodyFile := none, transform := none, viz := none, readme := none } =
        { p.input.getD {} with name := [], bodyFile := none, transform := none, viz := none, readme := none } := by
  rw [case_eq hp w]
  obtain ⟨i, e, b, t, v, r⟩ := p
  simp only
  rw [if_pos]
  · cases b with
    | none =>
      cases t <;> cases v <;> cases r <;>
        simp [put, setTransform, setViz, setReadme, Delivers, List.getElem?_append]
    | some x =>
      obtain ⟨n, d⟩ := x
      cases t <;> cases v <;> cases r <;>
        simp [put, setBody, setTransform, setViz, setReadme, Delivers, List.getElem?_append]
  · by_contra h
    refine hn ?_
    simp at h
    simp [Parts.nothing, h]

/-- `LoadTestCases` fails exactly if there is no directory that can be read, and else has the test cases of exactly those
subdirectories that are test cases, under their names and in their order. -/
theorem C85_all (F : FloatCodec) (disk : Disk) (dir : Bytes) (w : Files.World) :
    (loadTestCases F disk dir w = none ↔ ∀ l, disk dir ≠ .dir l) ∧
    ∀ l, disk dir = .dir l → ∃ tcs l', loadTestCases F disk dir w = some (tcs, w ++ l') ∧
      (tcs.map (·.1)).Sublist ((l.filter (·.2)).map (·.1)) ∧
      (∀ n, n ∈ tcs.map (·.1) ↔ (n, true) ∈ l ∧ ∃ p, Has F disk (inDir dir n) p ∧ ¬ p.nothing) ∧
      ∀ n tc, (n, tc) ∈ tcs → ∃ w1 w2 l'', newTestCase F disk (inDir dir n) w1 = .ok (tc, w2) ∧ w ++ l' = w2 ++ l'' := by
  refine ⟨?_, ?_⟩
  · unfold loadTestCases
    cases disk dir <;> simp
  · intro l hl
    have main : ∀ (l : List (Bytes × Bool)) (w : Files.World), ∃ l', (loadLoop F disk dir l w).2 = w ++ l' ∧
        ((loadLoop F disk dir l w).1.map (·.1)).Sublist ((l.filter (·.2)).map (·.1)) ∧
        (∀ n, n ∈ (loadLoop F disk dir l w).1.map (·.1) ↔ (n, true) ∈ l ∧ ∃ p, Has F disk (inDir dir n) p ∧ ¬ p.nothing) ∧
        ∀ n tc, (n, tc) ∈ (loadLoop F disk dir l w).1 → ∃ w1 w2 l'', newTestCase F disk (inDir dir n) w1 = .ok (tc, w2) ∧ w ++ l' = w2 ++ l'' := by
      intro l
      induction l with
      | nil => intro w; exact ⟨[], by simp [loadLoop]⟩
      | cons x l ih =>
        intro w
        obtain ⟨name, b⟩ := x
        unfold loadLoop
        cases b with
        | false =>
          obtain ⟨l', h1, h2, h3, h4⟩ := ih w
          refine ⟨l', by simpa using h1, by simpa using h2, ?_, by simpa using h4⟩
          intro n
          have := h3 n
          simp at this ⊢
          exact this
        | true =>
          simp only [if_true]
          have hld := C85_loads F disk (inDir dir name) w
          cases hc : newTestCase F disk (inDir dir name) w with
          | error e =>
            obtain ⟨l', h1, h2, h3, h4⟩ := ih w
            refine ⟨l', h1, ?_, ?_, h4⟩
            · simp only [List.filter_cons_of_pos, List.map_cons]
              exact h2.cons _
            · intro n
              simp only
              rw [h3]
              constructor
              · rintro ⟨a, b⟩; exact ⟨.tail _ a, b⟩
              · rintro ⟨a, b⟩
                rcases List.mem_cons.1 a with a | a
                · cases a
                  obtain ⟨r, hr⟩ := hld.2 b
                  rw [hc] at hr; cases hr
                · exact ⟨a, b⟩
          | ok r =>
            obtain ⟨tc, w1⟩ := r
            obtain ⟨p, hp, hn⟩ := hld.1 ⟨_, hc⟩
            obtain ⟨tc', l1, hc', _⟩ := C85_case F disk (inDir dir name) w p hp hn
            rw [hc] at hc'
            simp only [Except.ok.injEq, Prod.mk.injEq] at hc'
            obtain ⟨rfl, rfl⟩ := hc'
            obtain ⟨l', h1, h2, h3, h4⟩ := ih (w ++ l1)
            refine ⟨l1 ++ l', by rw [h1, List.append_assoc], ?_, ?_, ?_⟩
            · simp only [List.filter_cons_of_pos, List.map_cons]
              exact h2.cons_cons _
            · intro n
              simp only [List.map_cons, List.mem_cons, h3, Prod.mk.injEq, and_true]
              constructor
              · rintro (rfl | ⟨a, b⟩)
                · exact ⟨.inl rfl, p, hp, hn⟩
                · exact ⟨.inr a, b⟩
              · rintro ⟨rfl | a, b⟩
                · exact .inl rfl
                · exact .inr ⟨a, b⟩
            · intro n t ht
              rcases List.mem_cons.1 ht with ht | ht
              · cases ht
                exact ⟨w, _, l', hc, by simp⟩
              · obtain ⟨w1, w2, l'', e1, e2⟩ := h4 n t ht
                exact ⟨w1, w2, l'', e1, by rw [← e2]; simp⟩
    obtain ⟨l', h1, h2, h3, h4⟩ := main l w
    refine ⟨(loadLoop F disk dir l w).1, l', ?_, h2, h3, h4⟩
    rw [loadTestCases, hl, ← h1]

/-! ### The path of the body -/

/-- The path that `BodyFilepath` gives is that of the file whose bytes the test case has, if whatever is there can be opened. -/
theorem C85_body_path (disk : Disk) (dir : Bytes) (hd : ∀ x ∈ [Names.DataFormat.cbor, .json, .csv, .xlsx, .ndjson], disk (inDir dir (b!"body." ++ x.string)) ≠ .denied) :
    (bodyFilepath disk dir = none ↔ NoBody disk dir) ∧
    ∀ path, bodyFilepath disk dir = some path ↔ ∃ name n, BodyOf disk dir name n ∧ path = dir ++ b!"/" ++ name := by
  have hm : ∀ x ∈ [Names.DataFormat.cbor, .json, .csv, .xlsx, .ndjson], (Missing (disk (inDir dir (b!"body." ++ x.string))) ↔ disk (inDir dir (b!"body." ++ x.string)) = .absent) := by
    intro x hx
    have := hd x hx
    unfold Missing
    constructor
    · rintro (h | h)
      · exact h
      · exact absurd h this
    · exact .inl
  have hf : (bodyFilepath disk dir = none ↔ NoBody disk dir) := by
    unfold bodyFilepath NoBody
    rw [Option.map_eq_none_iff, List.find?_eq_none]
    constructor
    · intro h x hx
      rw [hm x hx]
      have h' := h x hx
      simp only [Bool.not_eq_true', Bool.not_eq_false, decide_eq_true_eq] at h'
      exact h'
    · intro h x hx
      have h' : disk (inDir dir (bodyName x)) = .absent := (hm x hx).1 (h x hx)
      simp [h']
  refine ⟨hf, fun path => ?_⟩
  unfold bodyFilepath
  rw [Option.map_eq_some_iff]
  constructor
  · rintro ⟨df, h1, rfl⟩
    rw [List.find?_eq_some_iff_append] at h1
    obtain ⟨h2, pre, post, h3, h4⟩ := h1
    have hall : ∀ y ∈ pre ++ df :: post, y ∈ [Names.DataFormat.cbor, .json, .csv, .xlsx, .ndjson] := by
      intro y hy; rw [← h3] at hy; exact hy
    refine ⟨bodyName df, disk (inDir dir (bodyName df)), ⟨pre, df, post, h3, ?_, rfl, rfl, ?_⟩, by simp [inDir]⟩
    · intro x hx
      rw [hm x (hall x (by simp [hx]))]
      have h' := h4 x hx
      simp only [Bool.not_not, decide_eq_true_eq] at h'
      exact h'
    · have := hm df (hall df (by simp))
      rw [bodyName, this]
      simp only [Bool.not_eq_true', decide_eq_false_iff_not] at h2
      exact h2
  · rintro ⟨name, n, ⟨pre, df, post, e1, e2, rfl, rfl, e5⟩, rfl⟩
    have hall : ∀ y ∈ pre ++ df :: post, y ∈ [Names.DataFormat.cbor, .json, .csv, .xlsx, .ndjson] := by
      intro y hy; rw [← e1] at hy; exact hy
    refine ⟨df, ?_, by simp [inDir, bodyName]⟩
    rw [List.find?_eq_some_iff_append]
    refine ⟨?_, pre, post, e1, ?_⟩
    · rw [hm df (hall df (by simp))] at e5
      simp only [Bool.not_eq_true', decide_eq_false_iff_not]
      exact e5
    · intro x hx
      have h' : disk (inDir dir (bodyName x)) = .absent := (hm x (hall x (by simp [hx]))).1 (e2 x hx)
      simp [h']

/-- Otherwise the path can be that of another file than the one the test case has its body from. -/
theorem C85_body_path_differs : ∃ (disk : Disk) (dir : Bytes), bodyFilepath disk dir = some (dir ++ b!"/body.json") ∧
    readBody disk dir supported = .found b!"body.csv" b!"a,b" :=
  ⟨fun p => if p = b!"d/body.json" then .denied else if p = b!"d/body.csv" then .file b!"a,b" false else .absent, b!"d", by decide +kernel, by decide +kernel⟩

/-! ### Files of a test case -/

/-- The files that a test case makes of its body and its scripts deliver the bytes it has; there is no script file exactly if it has no script. -/
theorem C85_files (name : Bytes) (data : Option Bytes) (w : Files.World) (t : TestCase) :
    ((scriptFile name data w).1 = none ↔ data = none) ∧
    (∀ d, data = some d → Delivers (scriptFile name data w).2 (scriptFile name data w).1 name d) ∧
    Delivers (t.bodyFile w).2 (some (t.bodyFile w).1) t.bodyFilename (t.body.getD []) := by
  refine ⟨?_, ?_, ?_⟩
  · cases data <;> simp [scriptFile, Files.memfile]
  · rintro d rfl
    simp [scriptFile, Files.memfile, Delivers]
  · simp [TestCase.bodyFile, Files.memfile, Delivers]

/-! ### Detection and step files from a path -/

/-- how a file is delivered: completely, and in pieces that are not empty -/
def Cuts (cut : Bytes → List Bytes) : Prop := ∀ data, (cut data).flatten = data ∧ ∀ c ∈ cut data, c ≠ []

/-- Detection from a path finds what detection from a body of that name and with the bytes of the file finds. It fails if there is no file that
can be opened. -/
theorem C85_from_file (E : Detect.Env) (cut : Bytes → List Bytes) (disk : Disk) (path : Bytes) (g : Structure) :
    fromFile E cut disk path = .ok g ↔
      ∃ data fails b', ((disk path = .file data fails) ∨ (∃ l, disk path = .dir l ∧ data = [] ∧ fails = true)) ∧
        Detect.structure_ E none (some { name := path, src := { chunks := cut data, err := if fails then .other b!"read" else .eof } }) = (none, some g, some b') := by
  have key : ∀ src : Detect.Src,
      ((match Names.formatFromFilename path with
        | none => Except.error FromErr.name
        | some (format, comp) =>
          match (Detect.fromReader E format comp src).1 with
          | .error e => .error (.detect e)
          | .ok st => .ok st) = Except.ok g) ↔ ∃ b', Detect.structure_ E none (some { name := path, src := src }) = (none, some g, some b') := by
    intro src
    unfold Detect.structure_
    simp only [Detect.complete, Bool.false_eq_true, if_false]
    cases Names.formatFromFilename path with
    | none => simp
    | some x =>
      obtain ⟨df, comp⟩ := x
      simp only
      cases hr : Detect.fromReader E df comp src with
      | mk r rest =>
        cases r with
        | error e => simp
        | ok st =>
          simp only [Detect.fill_none, Except.ok.injEq]
          constructor
          · rintro rfl; exact ⟨_, rfl⟩
          · rintro ⟨_, h⟩; cases h; rfl
  unfold fromFile source Node.open_
  cases hd : disk path with
  | absent => simp
  | denied => simp
  | dir l =>
    refine (key _).trans ?_
    simp
  | file data fails =>
    refine (key _).trans ?_
    cases fails <;> simp

/-- Hence a JSON body that can be read is recognised in the file that has its usual name, in any directory, unless the first piece of it is
short and white space only; the detected structure reads what the body was written for. -/
theorem C85_json_file (E : Formats.Env) (D : Detect.Env) (cut : Bytes → List Bytes) (hcut : Cuts cut) (disk : Disk) (dir data : Bytes) (st : Structure)
    (r r' : Formats.RState) (es : List Entry) (hj : Formats.isJSON st) (hc : st.compression = [])
    (hdisk : disk (dir ++ b!"/body.json") = .file data false)
    (ho : Formats.newEntryReader E st data = .ok r) (hd : Streams.Drains (Formats.reader E) r es .eof r')
    (hs : ∀ c cs, cut data = c :: cs → c.length < 100 → ∃ x ∈ c, ¬ Detect.ws x = true) :
    ∃ g, fromFile D cut disk (dir ++ b!"/body.json") = .ok g ∧ Formats.newEntryReader E g data = .ok r ∧
      Streams.getTopLevelType g.schema = Streams.getTopLevelType st.schema := by
  have hname : Names.formatFromFilename (dir ++ b!"/body.json") = some (.json, .none) := by
    have := Names.C09_round_trip (dir ++ b!"/body") b!"json" [] .json .none (by decide +kernel) (by decide) (.inl ⟨rfl, rfl⟩)
    have e : Names.addExtensions b!"json" [] (dir ++ b!"/body") = dir ++ b!"/body.json" := by
      simp [Names.addExtensions]
    rwa [e] at this
  obtain ⟨g, b', h1, _, h3, h4⟩ := Formats.C79_json E D st data r r' es hj hc ho hd
    { name := dir ++ b!"/body.json", src := { chunks := cut data, err := .eof } } hname (by simp [Detect.Src.text, (hcut data).1]) rfl (by
      rintro ⟨c, cs, e1, e2, e3⟩
      obtain ⟨x, hx, hx'⟩ := hs c cs e1 e2
      exact hx' (List.all_eq_true.1 e3 x hx))
  exact ⟨g, (C85_from_file D cut disk _ g).2 ⟨data, false, b', .inl hdisk, h1⟩, h3, h4⟩

/-- A step file is read exactly if it can be read to the end; steps that were written to it come back, as texts, exactly if the separator
does not come about in another place. -/
theorem C85_step_file (disk : Disk) (path : Bytes) :
    ((∃ l, readSteps disk path = some l) ↔ ∃ data, disk path = .file data false) ∧
    ∀ l : List Bytes, disk path = .file (Config.write (l.map .str)).1 false → (readSteps disk path = some (l.map .str) ↔ Config.Survives l) := by
  constructor
  · unfold readSteps Node.open_
    cases disk path with
    | file data b => cases b <;> simp
    | _ => simp
  · intro l hl
    rw [← (Config.C37_steps l).2]
    unfold readSteps
    rw [hl]
    simp [Node.open_]

/-! ### Examples -/

/-- a directory with an input dataset, two bodies, a readme script and a template that may not be opened -/
def exDisk : Disk := fun p =>
  if p = b!"cases" then .dir [(b!"a", true), (b!"b", true), (b!"c", false)]
  else if p = b!"cases/a/input.dataset.json" then .file b!"{\"name\":\"x\",\"readme\":{\"text\":\"t\"}}" false
  else if p = b!"cases/a/body.ndjson" then .file b!"1" false
  else if p = b!"cases/a/body.csv" then .file b!"a,b\n" false
  else if p = b!"cases/a/template.html" then .denied
  else if p = b!"cases/a/readme.md" then .file b!"# a" false
  else if p = b!"cases/b/body.json" then .dir []
  else .absent

example : base b!"cases/a" = b!"a" ∧ base b!"cases/a//" = b!"a" ∧ base b!"//" = b!"/" ∧ base [] = b!"." := by decide +kernel

example : (newTestCase DocText.F0 exDisk b!"cases/a" []).toOption.map (fun r => (r.1.name, r.1.input.name, r.1.bodyFilename, r.1.body)) =
    some (b!"a", b!"a", b!"body.csv", some b!"a,b\n") := by decide +kernel

example : (newTestCase DocText.F0 exDisk b!"cases/a" []).toOption.map (·.2) =
    some ([{ name := b!"/body.csv", rest := b!"a,b\n" }, { name := b!"readme.md", rest := b!"# a" }]) := by
  decide +kernel

example : (newTestCase DocText.F0 exDisk b!"cases/a" []).toOption.bind (fun r => r.1.input.readme.map fun m => (m.text, m.scriptFile)) = some (b!"t", some 1) := by
  decide +kernel

-- a directory in place of a body is an error, and no data at all as well
example : (match newTestCase DocText.F0 exDisk b!"cases/b" [] with | .error e => some e | .ok _ => none) = some .body ∧
    (match newTestCase DocText.F0 exDisk b!"cases/c" [] with | .error e => some e | .ok _ => none) = some .noData := by decide +kernel

example : (loadTestCases DocText.F0 exDisk b!"cases" []).map (fun r => r.1.map (·.1)) = some [b!"a"] := by decide +kernel

example : ∃ p, Has DocText.F0 exDisk b!"cases/a" p ∧ p.body = some (b!"body.csv", b!"a,b\n") ∧ p.viz = none ∧ ¬ p.nothing := by
  obtain ⟨p, hp, hn⟩ := (C85_loads DocText.F0 exDisk b!"cases/a" []).1 (by
    cases h : newTestCase DocText.F0 exDisk b!"cases/a" [] with
    | ok r => exact ⟨r, rfl⟩
    | error e =>
      have : (newTestCase DocText.F0 exDisk b!"cases/a" []).toOption.isSome = true := by decide +kernel
      rw [h] at this; cases this)
  obtain ⟨tc, l, h1, _, _, _, h2, h3, _, _, h4, _⟩ := C85_case DocText.F0 exDisk b!"cases/a" [] p hp hn
  have e : (newTestCase DocText.F0 exDisk b!"cases/a" []).toOption.map (fun r => (r.1.bodyFilename, r.1.body, r.1.vizScript)) =
    some (b!"body.csv", some b!"a,b\n", none) := by decide +kernel
  rw [h1] at e
  simp only [Except.toOption, Option.map_some, Option.some.injEq, Prod.mk.injEq] at e
  refine ⟨p, hp, ?_, ?_, hn⟩
  · rw [h2, h3] at e
    cases hb : p.body with
    | none => rw [hb] at e; simp at e
    | some x => rw [hb] at e; simp at e; obtain ⟨a, b⟩ := x; simp at e; simp [e]
  · rw [← h4]; exact e.2.2

example : readSteps (fun _ => .file b!"a\n---\nb" false) b!"s" = some [.str b!"a", .str b!"b"] ∧ readSteps exDisk b!"cases" = none := by decide +kernel

example : (match fromFile Detect.exE (fun s => [s]) (fun _ => .file b!"[1]" false) b!"/tmp/x/body.json" with | .ok g => some (g.format, g.schema) | .error _ => none) =
    some (b!"json", some [(b!"type", .str b!"array")]) := by decide +kernel

end Verif.Disk
