import Verif.Model.Files
/-
C67: files of components – what `OpenScriptFile`, `InlineScriptFile`, `OpenRenderedFile` and `OpenBodyFile` open,
read and leave behind, for every resolver and all files there are.
-/
namespace Verif.Files
open Verif.Doc

/-! ### Specification -/

/-- a component with a script: its fields and its two operations -/
structure Scripted (α : Type) where
  /-- name of the file made of the text -/
  mem : Bytes
  text : α → Bytes
  path : α → Bytes
  file : α → Option File
  /-- the component with another script file, and nothing else changed -/
  withFile : α → Option File → α
  /-- the component with this text, no script path and this file, and nothing else changed -/
  inlined : α → Bytes → Option File → α
  openF : α → Option Resolver → World → Option Err × α × World
  inlineF : α → Option Resolver → World → Option Err × α × World

/-- readmes -/
def readmes : Scripted Readme where
  mem := b!"readme.md"
  text := Readme.text
  path := Readme.scriptPath
  file := Readme.scriptFile
  withFile r f := { r with scriptFile := f }
  inlined r t f := { r with text := t, scriptPath := [], scriptFile := f }
  openF := Readme.openScriptFile
  inlineF := Readme.inlineScriptFile

/-- visualizations -/
def vizs : Scripted Viz where
  mem := b!"template.html"
  text := Viz.text
  path := Viz.scriptPath
  file := Viz.scriptFile
  withFile r f := { r with scriptFile := f }
  inlined r t f := { r with text := t, scriptPath := [], scriptFile := f }
  openF := Viz.openScriptFile
  inlineF := Viz.inlineScriptFile

/-- transforms -/
def transforms : Scripted Transform where
  mem := b!"transform.star"
  text := Transform.text
  path := Transform.scriptPath
  file := Transform.scriptFile
  withFile r f := { r with scriptFile := f }
  inlined r t f := { r with text := t, scriptPath := [], scriptFile := f }
  openF := Transform.openScriptFile
  inlineF := Transform.inlineScriptFile

/-- what opening a script does: the text comes before the script path, no exported field changes, no file that was
there changes unless the resolver is asked -/
structure OpenSpec {α : Type} (S : Scripted α) : Prop where
  /-- a component with text: a new file with exactly the text, whatever the resolver is -/
  text : ∀ c get w, S.text c ≠ [] →
    S.openF c get w = (none, S.withFile c (some w.length), w ++ [{ name := S.mem, rest := S.text c, fails := false }])
  /-- neither text nor script path: nothing happens -/
  nothing : ∀ c get w, S.text c = [] → S.path c = [] → S.openF c get w = (none, c, w)
  /-- a script path and no resolver: an error, nothing happens -/
  unresolved : ∀ c w, S.text c = [] → S.path c ≠ [] → S.openF c none w = (some .noResolver, c, w)
  /-- a script path and a resolver: its file and its error, even if it gives both -/
  resolved : ∀ c (get : Resolver) w, S.text c = [] → S.path c ≠ [] →
    S.openF c (some get) w =
      ((get (S.path c) w).err.map .get, S.withFile c (get (S.path c) w).file, (get (S.path c) w).world)

/-- what inlining a script does -/
structure InlineSpec {α : Type} (S : Scripted α) : Prop where
  /-- without resolver nothing happens and there is no error, not even if there is a script path -/
  no_resolver : ∀ c w, S.inlineF c none w = (none, c, w)
  /-- a component with text keeps it and loses its script path; the resolver is not asked -/
  text : ∀ c (get : Resolver) w, S.text c ≠ [] →
    S.inlineF c (some get) w = (none, S.inlined c (S.text c) (some w.length), w ++ [{ name := S.mem, rest := [], fails := false }])
  /-- errors of opening -/
  failed : ∀ c (get : Resolver) w e c' w', S.openF c (some get) w = (some e, c', w') → S.inlineF c (some get) w = (some e, c', w')
  /-- no file -/
  nofile : ∀ c (get : Resolver) w c' w', S.openF c (some get) w = (none, c', w') → S.file c' = none →
    S.inlineF c (some get) w = (none, c', w')
  /-- the file is read to its end, its bytes become the text, the script path is dropped -/
  file : ∀ c (get : Resolver) w c' w' f s, S.openF c (some get) w = (none, c', w') → S.file c' = some f → w'[f]? = some s →
    s.fails = false → S.inlineF c (some get) w = (none, S.inlined c s.rest (some f), w'.set f { s with rest := [] })
  /-- reading fails: text and script path stay, what was read is gone -/
  reading : ∀ c (get : Resolver) w c' w' f s, S.openF c (some get) w = (none, c', w') → S.file c' = some f → w'[f]? = some s →
    s.fails = true → S.inlineF c (some get) w = (some .reading, c', w'.set f { s with rest := [] })

/-! ### Opening and inlining -/

theorem openScript_text (mem text path : Bytes) (file : Option File) (get : Option Resolver) (w : World) (h : text ≠ []) :
    openScript mem text path file get w = (none, some w.length, w ++ [{ name := mem, rest := text, fails := false }]) := by
  simp [openScript, h, memfile]

theorem readAll_last (w : World) (s : FileState) :
    readAll (w ++ [s]) w.length = (s.rest, s.fails, w ++ [{ s with rest := [] }]) := by
  simp [readAll]

/-- opening scripts, of all components that have scripts -/
theorem C67_open : OpenSpec readmes ∧ OpenSpec vizs ∧ OpenSpec transforms := by
  refine ⟨⟨?_, ?_, ?_, ?_⟩, ⟨?_, ?_, ?_, ?_⟩, ⟨?_, ?_, ?_, ?_⟩⟩
  all_goals rintro ⟨⟩
  all_goals intros
  all_goals simp_all [readmes, vizs, transforms, Readme.openScriptFile, Viz.openScriptFile, Transform.openScriptFile, openScript, memfile]

/-- inlining scripts, of all components that have scripts -/
theorem C67_inline : InlineSpec readmes ∧ InlineSpec vizs ∧ InlineSpec transforms := by
  refine ⟨⟨?_, ?_, ?_, ?_, ?_, ?_⟩, ⟨?_, ?_, ?_, ?_, ?_, ?_⟩, ⟨?_, ?_, ?_, ?_, ?_, ?_⟩⟩
  all_goals simp only [readmes, vizs, transforms, Readme.openScriptFile, Viz.openScriptFile, Transform.openScriptFile,
    Readme.inlineScriptFile, Viz.inlineScriptFile, Transform.inlineScriptFile]
  all_goals intro c
  all_goals try
    · intro w
      simp [inlineScript]
  all_goals try
    · intro get w h
      simp [inlineScript, openScript_text, h, readAll_last]
  all_goals try
    · intro get w e c' w' h
      simp only [Prod.mk.injEq] at h
      obtain ⟨h1, h2, h3⟩ := h
      subst h2 h3
      simp only [inlineScript]
      generalize openScript _ _ _ _ _ _ = o at *
      obtain ⟨o1, o2, o3⟩ := o
      simp only at h1
      subst h1
      simp
  all_goals try
    · intro get w c' w' h hf
      simp only [Prod.mk.injEq] at h
      obtain ⟨h1, h2, h3⟩ := h
      subst h2 h3
      simp only [inlineScript]
      generalize openScript _ _ _ _ _ _ = o at *
      obtain ⟨o1, o2, o3⟩ := o
      simp only at h1 hf
      subst h1 hf
      simp
  all_goals
    · intro get w c' w' f s h hf hs hfail
      simp only [Prod.mk.injEq] at h
      obtain ⟨h1, h2, h3⟩ := h
      subst h2 h3
      simp only [inlineScript]
      generalize openScript _ _ _ _ _ _ = o at *
      obtain ⟨o1, o2, o3⟩ := o
      simp only at h1 hf hs
      subst h1 hf
      simp [readAll, hs, hfail]

/-! ### What follows -/

/-- fields of components do not influence one another -/
structure Lawful {α : Type} (S : Scripted α) : Prop where
  text_withFile : ∀ c f, S.text (S.withFile c f) = S.text c
  path_withFile : ∀ c f, S.path (S.withFile c f) = S.path c
  file_withFile : ∀ c f, S.file (S.withFile c f) = f
  text_inlined : ∀ c t f, S.text (S.inlined c t f) = t
  path_inlined : ∀ c t f, S.path (S.inlined c t f) = []
  file_inlined : ∀ c t f, S.file (S.inlined c t f) = f

/-- text and script path after opening, successful or not, are those before -/
def Opens {α : Type} (S : Scripted α) : Prop :=
  ∀ c get w, S.text (S.openF c get w).2.1 = S.text c ∧ S.path (S.openF c get w).2.1 = S.path c

/-- once a script with at least one byte is inlined, it can be opened with any resolver or none, at any time, as
often as one likes, and reading it gives what the script file had, to the byte -/
def Reopens {α : Type} (S : Scripted α) : Prop :=
  ∀ c (get : Resolver) w c1 w1 f s, S.openF c (some get) w = (none, c1, w1) → S.file c1 = some f → w1[f]? = some s →
    s.fails = false → s.rest ≠ [] →
    ∃ c' w', S.inlineF c (some get) w = (none, c', w') ∧ S.text c' = s.rest ∧ S.path c' = [] ∧
      ∀ get2 w2, ∃ c2 w3 g, S.openF c' get2 w2 = (none, c2, w3) ∧ S.file c2 = some g ∧
        (readAll w3 g).1 = s.rest ∧ (readAll w3 g).2.1 = false ∧ ∀ i < w2.length, w3[i]? = w2[i]?

/-- a script file without bytes is lost by inlining: the component has neither text nor script path afterwards, and
nothing is opened any more -/
def Loses {α : Type} (S : Scripted α) : Prop :=
  ∀ c (get : Resolver) w c1 w1 f s, S.openF c (some get) w = (none, c1, w1) → S.file c1 = some f → w1[f]? = some s →
    s.fails = false → s.rest = [] →
    ∃ c' w', S.inlineF c (some get) w = (none, c', w') ∧ S.text c' = [] ∧ S.path c' = [] ∧
      ∀ get2 w2, S.openF c' get2 w2 = (none, c', w2)

/-- a failing inlining keeps text and script path, and does not fail for want of a resolver -/
def Keeps {α : Type} (S : Scripted α) : Prop :=
  ∀ c get w e c' w', S.inlineF c get w = (some e, c', w') →
    S.text c' = S.text c ∧ S.path c' = S.path c ∧ e ≠ .noResolver ∧ e ≠ .inlineBody

/-- inlining once more changes neither text nor script path -/
def Settles {α : Type} (S : Scripted α) : Prop :=
  ∀ c (get : Resolver) w c' w', S.inlineF c (some get) w = (none, c', w') → S.text c' ≠ [] →
    ∀ get2 w2, ∃ c2 w3, S.inlineF c' get2 w2 = (none, c2, w3) ∧ S.text c2 = S.text c' ∧ S.path c2 = S.path c' ∧ S.path c' = []

theorem lawful : Lawful readmes ∧ Lawful vizs ∧ Lawful transforms :=
  ⟨⟨fun _ _ => rfl, fun _ _ => rfl, fun _ _ => rfl, fun _ _ _ => rfl, fun _ _ _ => rfl, fun _ _ _ => rfl⟩,
   ⟨fun _ _ => rfl, fun _ _ => rfl, fun _ _ => rfl, fun _ _ _ => rfl, fun _ _ _ => rfl, fun _ _ _ => rfl⟩,
   ⟨fun _ _ => rfl, fun _ _ => rfl, fun _ _ => rfl, fun _ _ _ => rfl, fun _ _ _ => rfl, fun _ _ _ => rfl⟩⟩

section
variable {α : Type} {S : Scripted α} (L : Lawful S) (O : OpenSpec S) (I : InlineSpec S)
include L O

theorem opens : Opens S := by
  intro c get w
  by_cases ht : S.text c = []
  · by_cases hp : S.path c = []
    · rw [O.nothing c get w ht hp]; exact ⟨rfl, rfl⟩
    · cases get with
      | none => rw [O.unresolved c w ht hp]; exact ⟨rfl, rfl⟩
      | some get => rw [O.resolved c get w ht hp]; exact ⟨L.text_withFile _ _, L.path_withFile _ _⟩
  · rw [O.text c get w ht]; exact ⟨L.text_withFile _ _, L.path_withFile _ _⟩

include I

theorem reopens : Reopens S := by
  intro c get w c1 w1 f s ho hf hs hfail hne
  refine ⟨_, _, I.file c get w c1 w1 f s ho hf hs hfail, L.text_inlined _ _ _, L.path_inlined _ _ _, ?_⟩
  intro get2 w2
  refine ⟨_, _, w2.length, O.text _ get2 w2 (by rw [L.text_inlined]; exact hne), L.file_withFile _ _, ?_, ?_, ?_⟩
  · rw [readAll_last]; exact L.text_inlined _ _ _
  · rw [readAll_last]
  · intro i hi
    exact List.getElem?_append_left hi

theorem loses : Loses S := by
  intro c get w c1 w1 f s ho hf hs hfail he
  refine ⟨_, _, I.file c get w c1 w1 f s ho hf hs hfail, ?_, L.path_inlined _ _ _, ?_⟩
  · rw [L.text_inlined, he]
  · intro get2 w2
    exact O.nothing _ _ _ (by rw [L.text_inlined, he]) (L.path_inlined _ _ _)

theorem keeps (hd : ∀ c (get : Resolver) w c1 w1 f, S.openF c (some get) w = (none, c1, w1) → S.file c1 = some f → w1[f]? = none →
      (S.inlineF c (some get) w).1 = none) : Keeps S := by
  intro c get w e c' w' h
  cases get with
  | none => rw [I.no_resolver] at h; simp at h
  | some get =>
    have ho := opens L O c (some get) w
    cases h1 : S.openF c (some get) w with
    | mk e1 r =>
      obtain ⟨c1, w1⟩ := r
      rw [h1] at ho
      cases e1 with
      | some e1 =>
        rw [I.failed c get w e1 c1 w1 h1] at h
        simp only [Prod.mk.injEq, Option.some.injEq] at h
        obtain ⟨rfl, rfl, rfl⟩ := h
        refine ⟨ho.1, ho.2, ?_⟩
        by_cases ht : S.text c = []
        · by_cases hp : S.path c = []
          · rw [O.nothing c _ w ht hp] at h1; simp at h1
          · rw [O.resolved c get w ht hp] at h1
            simp only [Prod.mk.injEq, Option.map_eq_some_iff] at h1
            obtain ⟨⟨t, _, rfl⟩, _⟩ := h1
            exact ⟨by simp, by simp⟩
        · rw [O.text c _ w ht] at h1; simp at h1
      | none =>
        cases hf : S.file c1 with
        | none => rw [I.nofile c get w c1 w1 h1 hf] at h; simp at h
        | some f =>
          cases hs : w1[f]? with
          | none => have := hd c get w c1 w1 f h1 hf hs; rw [h] at this; simp at this
          | some s =>
            cases hfl : s.fails with
            | false => rw [I.file c get w c1 w1 f s h1 hf hs hfl] at h; simp at h
            | true =>
              rw [I.reading c get w c1 w1 f s h1 hf hs hfl] at h
              simp only [Prod.mk.injEq, Option.some.injEq] at h
              obtain ⟨rfl, rfl, rfl⟩ := h
              exact ⟨ho.1, ho.2, by simp, by simp⟩

theorem settles (hd : ∀ c (get : Resolver) w c1 w1 f, S.openF c (some get) w = (none, c1, w1) → S.file c1 = some f → w1[f]? = none →
      ∃ c' w', S.inlineF c (some get) w = (none, c', w') ∧ S.text c' = []) : Settles S := by
  intro c get w c' w' h hne get2 w2
  have hp : S.path c' = [] := by
    by_cases ht : S.text c = []
    · have ho := opens L O c (some get) w
      cases h1 : S.openF c (some get) w with
      | mk e1 r =>
        obtain ⟨c1, w1⟩ := r
        rw [h1] at ho
        cases e1 with
        | some e1 => rw [I.failed c get w e1 c1 w1 h1] at h; simp at h
        | none =>
          cases hf : S.file c1 with
          | none =>
            rw [I.nofile c get w c1 w1 h1 hf] at h
            simp only [Prod.mk.injEq, true_and] at h
            obtain ⟨rfl, rfl⟩ := h
            exact absurd (ho.1.trans ht) hne
          | some f =>
            cases hs : w1[f]? with
            | none =>
              obtain ⟨c2, w2, h2, h3⟩ := hd c get w c1 w1 f h1 hf hs
              rw [h] at h2
              simp only [Prod.mk.injEq, true_and] at h2
              rw [← h2.1] at h3
              exact absurd h3 hne
            | some s =>
              cases hfl : s.fails with
              | true => rw [I.reading c get w c1 w1 f s h1 hf hs hfl] at h; simp at h
              | false =>
                rw [I.file c get w c1 w1 f s h1 hf hs hfl] at h
                simp only [Prod.mk.injEq, true_and] at h
                rw [← h.1]; exact L.path_inlined _ _ _
    · rw [I.text c get w ht] at h
      simp only [Prod.mk.injEq, true_and] at h
      rw [← h.1]; exact L.path_inlined _ _ _
  cases get2 with
  | none => exact ⟨c', w2, I.no_resolver _ _, rfl, rfl, hp⟩
  | some get2 =>
    exact ⟨_, _, I.text c' get2 w2 hne, L.text_inlined _ _ _, (L.path_inlined _ _ _).trans hp.symm, hp⟩
end

/-- an open file is always one that exists; for the others the model gives an empty text -/
def Dangles {α : Type} (S : Scripted α) : Prop :=
  ∀ c (get : Resolver) w c1 w1 f, S.openF c (some get) w = (none, c1, w1) → S.file c1 = some f → w1[f]? = none →
    ∃ c' w', S.inlineF c (some get) w = (none, c', w') ∧ S.text c' = []

theorem dangles : Dangles readmes ∧ Dangles vizs ∧ Dangles transforms := by
  refine ⟨?_, ?_, ?_⟩
  all_goals
    intro c get w c' w' f h hf hs
    simp only [readmes, vizs, transforms, Readme.openScriptFile, Viz.openScriptFile, Transform.openScriptFile,
      Readme.inlineScriptFile, Viz.inlineScriptFile, Transform.inlineScriptFile] at h hf ⊢
    simp only [Prod.mk.injEq] at h
    obtain ⟨h1, h2, h3⟩ := h
    subst h2 h3
    simp only [inlineScript]
    generalize openScript _ _ _ _ _ _ = o at *
    obtain ⟨o1, o2, o3⟩ := o
    simp only at h1 hf hs
    subst h1 hf
    simp [readAll, hs]

/-- opening changes neither text nor script path -/
theorem C67_open_keeps : Opens readmes ∧ Opens vizs ∧ Opens transforms :=
  ⟨opens lawful.1 C67_open.1, opens lawful.2.1 C67_open.2.1, opens lawful.2.2 C67_open.2.2⟩

/-- an inlined script is the script -/
theorem C67_reopen : Reopens readmes ∧ Reopens vizs ∧ Reopens transforms :=
  ⟨reopens lawful.1 C67_open.1 C67_inline.1, reopens lawful.2.1 C67_open.2.1 C67_inline.2.1, reopens lawful.2.2 C67_open.2.2 C67_inline.2.2⟩

/-- an inlined empty script is none -/
theorem C67_lost : Loses readmes ∧ Loses vizs ∧ Loses transforms :=
  ⟨loses lawful.1 C67_open.1 C67_inline.1, loses lawful.2.1 C67_open.2.1 C67_inline.2.1, loses lawful.2.2 C67_open.2.2 C67_inline.2.2⟩

/-- failing inlining -/
theorem C67_inline_keeps : Keeps readmes ∧ Keeps vizs ∧ Keeps transforms := by
  refine ⟨keeps lawful.1 C67_open.1 C67_inline.1 ?_, keeps lawful.2.1 C67_open.2.1 C67_inline.2.1 ?_,
    keeps lawful.2.2 C67_open.2.2 C67_inline.2.2 ?_⟩
  · intro c get w c1 w1 f h1 h2 h3
    obtain ⟨c', w', h, _⟩ := dangles.1 c get w c1 w1 f h1 h2 h3
    rw [h]
  · intro c get w c1 w1 f h1 h2 h3
    obtain ⟨c', w', h, _⟩ := dangles.2.1 c get w c1 w1 f h1 h2 h3
    rw [h]
  · intro c get w c1 w1 f h1 h2 h3
    obtain ⟨c', w', h, _⟩ := dangles.2.2 c get w c1 w1 f h1 h2 h3
    rw [h]

/-- inlining twice -/
theorem C67_inline_settles : Settles readmes ∧ Settles vizs ∧ Settles transforms :=
  ⟨settles lawful.1 C67_open.1 C67_inline.1 dangles.1, settles lawful.2.1 C67_open.2.1 C67_inline.2.1 dangles.2.1,
   settles lawful.2.2 C67_open.2.2 C67_inline.2.2 dangles.2.2⟩

/-- a readme that had only a script path, of a script file without bytes, is empty after inlining (and so is left out
of the dataset when it is saved) -/
theorem C67_lost_readme (r : Readme) (get : Resolver) (w : World) (f : File) (s : FileState) (hr : r.format = [])
    (ht : r.text = []) (hp : r.scriptPath ≠ []) (hre : r.renderedPath = []) (ha : (get r.scriptPath w).err = none)
    (hf : (get r.scriptPath w).file = some f) (hs : (get r.scriptPath w).world[f]? = some s) (he : s.rest = []) (hfl : s.fails = false) :
    r.isEmpty = false ∧ (Readme.inlineScriptFile r (some get) w).1 = none ∧
      (Readme.inlineScriptFile r (some get) w).2.1.isEmpty = true := by
  have h1 := C67_open.1.resolved r get w ht hp
  have h2 := C67_inline.1.file r get w { r with scriptFile := (get r.scriptPath w).file } (get r.scriptPath w).world f s
    (by rw [h1]; simp only [readmes, ha]; rfl) hf hs hfl
  simp only [readmes] at h2
  rw [h2]
  refine ⟨?_, rfl, ?_⟩
  · simp [Readme.isEmpty, hp]
  · simp [Readme.isEmpty, hr, hre, he]

/-! ### Rendered files and bodies -/

/-- `OpenRenderedFile`: only the rendered file changes, and only by the resolver -/
theorem C67_rendered (r : Readme) (v : Viz) (w : World) :
    (r.renderedPath = [] → ∀ get, Readme.openRenderedFile r get w = (none, r, w)) ∧
    (r.renderedPath ≠ [] → Readme.openRenderedFile r none w = (some .noResolver, r, w) ∧
      ∀ get : Resolver, Readme.openRenderedFile r (some get) w =
        ((get r.renderedPath w).err.map .get, { r with renderedFile := (get r.renderedPath w).file }, (get r.renderedPath w).world)) ∧
    (v.renderedPath = [] → ∀ get, Viz.openRenderedFile v get w = (none, v, w)) ∧
    (v.renderedPath ≠ [] → Viz.openRenderedFile v none w = (some .noResolver, v, w) ∧
      ∀ get : Resolver, Viz.openRenderedFile v (some get) w =
        ((get v.renderedPath w).err.map .get, { v with renderedFile := (get v.renderedPath w).file }, (get v.renderedPath w).world)) := by
  obtain ⟨⟩ := r
  obtain ⟨⟩ := v
  simp_all [Readme.openRenderedFile, Viz.openRenderedFile, openRendered]

/-- a body that is a value: an error, and nothing else happens, even if there are body bytes or a body path -/
theorem C67_body_value (d : Dataset) (get : Option Resolver) (w : World) (h : d.body ≠ .null) :
    Dataset.openBodyFile d get w = (some .inlineBody, d, w) := by simp [Dataset.openBodyFile, h]

/-- body bytes, even none: a new file with exactly these bytes, whatever body path and resolver are; only the body
file of the dataset changes -/
theorem C67_body_bytes (d : Dataset) (get : Option Resolver) (w : World) (data : Bytes) (h : d.body = .null) (hb : d.bodyBytes = some data) :
    ∃ name, name ≠ [] ∧ (d.bodyPath ≠ [] → name = d.bodyPath) ∧
      Dataset.openBodyFile d get w = (none, { d with bodyFile := some w.length }, w ++ [{ name, rest := data, fails := false }]) ∧
      readAll (Dataset.openBodyFile d get w).2.2 w.length = (data, false, w ++ [{ name, rest := [], fails := false }]) := by
  refine ⟨if d.bodyPath = [] then b!"body" else d.bodyPath, ?_, ?_, ?_, ?_⟩
  · split
    · decide
    · assumption
  · intro hp; rw [if_neg hp]
  · simp [Dataset.openBodyFile, h, hb, memfile]
  · simp only [Dataset.openBodyFile, h, hb, memfile]
    exact readAll_last _ _

/-- a body path: the file and the error of the resolver, the latter behind the path -/
theorem C67_body_path (d : Dataset) (w : World) (h : d.body = .null) (hb : d.bodyBytes = none) :
    (d.bodyPath = [] → ∀ get, Dataset.openBodyFile d get w = (none, d, w)) ∧
    (d.bodyPath ≠ [] → Dataset.openBodyFile d none w = (some .noResolver, d, w) ∧
      ∀ get : Resolver, (Dataset.openBodyFile d (some get) w).2 =
          ({ d with bodyFile := (get d.bodyPath w).file }, (get d.bodyPath w).world) ∧
        ((get d.bodyPath w).err = none → (Dataset.openBodyFile d (some get) w).1 = none) ∧
        (∀ t, (get d.bodyPath w).err = some t →
          (Dataset.openBodyFile d (some get) w).1 = some (.get (b!"opening dataset.bodyPath '" ++ d.bodyPath ++ b!"': " ++ t)))) := by
  refine ⟨fun hp get => by simp [Dataset.openBodyFile, h, hb, hp], fun hp => ⟨by simp [Dataset.openBodyFile, h, hb, hp], fun get => ?_⟩⟩
  refine ⟨by simp [Dataset.openBodyFile, h, hb, hp], fun he => by simp [Dataset.openBodyFile, h, hb, hp, he], fun t he => ?_⟩
  simp [Dataset.openBodyFile, h, hb, hp, he, wrapBody]

/-- opening the body fails exactly if the body is a value, or only a path is there and the resolver is missing or fails -/
theorem C67_body_error (d : Dataset) (get : Option Resolver) (w : World) :
    (Dataset.openBodyFile d get w).1 ≠ none ↔
      d.body ≠ .null ∨ d.bodyBytes = none ∧ d.bodyPath ≠ [] ∧ ∀ g, get = some g → (g d.bodyPath w).err ≠ none := by
  by_cases h : d.body = .null
  · cases hb : d.bodyBytes with
    | some data => simp [Dataset.openBodyFile, h, hb, memfile]
    | none =>
      by_cases hp : d.bodyPath = []
      · simp [Dataset.openBodyFile, h, hb, hp]
      · cases get <;> simp [Dataset.openBodyFile, h, hb, hp]
  · simp [Dataset.openBodyFile, h]

/-! ### Examples -/

/-- a resolver with one file, `s.md`, and an empty one, `e.md` -/
def exGet : Resolver := fun path w =>
  if path = b!"s.md" then { file := some w.length, world := w ++ [{ name := path, rest := b!"# hi" }] }
  else if path = b!"e.md" then { file := some w.length, world := w ++ [{ name := path, rest := [] }] }
  else if path = b!"bad" then { file := some w.length, world := w ++ [{ name := path, rest := b!"# h", fails := true }] }
  else { err := some b!"path not found", world := w }

example : Readme.inlineScriptFile { format := b!"md", scriptPath := b!"s.md" } (some exGet) [] =
    (none, { format := b!"md", text := b!"# hi", scriptFile := some 0 }, [{ name := b!"s.md", rest := [] }]) := by decide +kernel

-- the resolver is not asked if there is text
example : Viz.openScriptFile { scriptPath := b!"nope", text := b!"<p>" } (some exGet) [{ name := b!"x", rest := b!"y" }] =
    (none, { scriptPath := b!"nope", text := b!"<p>", scriptFile := some 1 },
      [{ name := b!"x", rest := b!"y" }, { name := b!"template.html", rest := b!"<p>" }]) := by decide +kernel

-- an empty script
example : (Readme.inlineScriptFile { scriptPath := b!"e.md" } (some exGet) []).2.1 = { scriptFile := some 0 } := by decide +kernel

-- a script that cannot be read to its end
example : Transform.inlineScriptFile { scriptPath := b!"bad" } (some exGet) [] =
    (some .reading, { scriptPath := b!"bad", scriptFile := some 0 }, [{ name := b!"bad", rest := [], fails := true }]) := by decide +kernel

-- no resolver: inlining says nothing, opening fails
example : Transform.inlineScriptFile { scriptPath := b!"s.md" } none [] = (none, { scriptPath := b!"s.md" }, []) ∧
    Transform.openScriptFile { scriptPath := b!"s.md" } none [] = (some .noResolver, { scriptPath := b!"s.md" }, []) := by decide +kernel

-- an error of the resolver, and its file is gone
example : Readme.openScriptFile { scriptPath := b!"nope", scriptFile := some 0 } (some exGet) [{ name := b!"x", rest := b!"y" }] =
    (some (.get b!"path not found"), { scriptPath := b!"nope", scriptFile := none }, [{ name := b!"x", rest := b!"y" }]) := by decide +kernel

example : (Dataset.openBodyFile { bodyBytes := some b!"[1]", bodyPath := b!"b.json" } none []).2.2 =
    [{ name := b!"b.json", rest := b!"[1]" }] := by decide +kernel
example : (Dataset.openBodyFile { bodyPath := b!"nope" } (some exGet) []).1 =
    some (.get b!"opening dataset.bodyPath 'nope': path not found") := by decide +kernel

end Verif.Files
