import Verif.Model.DocHeap
import Verif.Props.Assign
/-
C03: `Dataset.Assign` with shared pointers.
-/
namespace Verif.Doc

/-- two datasets share no component of the given kind -/
def NoShare (p q : Option Nat) : Prop := ∀ a, p = some a → q ≠ some a

/-- two dataset objects share no component -/
def Apart (x y : DsObj) : Prop :=
  NoShare x.commit y.commit ∧ NoShare x.meta_ y.meta_ ∧ NoShare x.readme y.readme ∧ NoShare x.structure_ y.structure_ ∧
  NoShare x.stats y.stats ∧ NoShare x.transform y.transform ∧ NoShare x.viz y.viz

theorem upd_ne {α : Type} (h : Nat → α) {p q : Nat} (v : α) (hne : q ≠ p) : upd h p v q = h q := by simp [upd, hne]
theorem upd_self {α : Type} (h : Nat → α) (p : Nat) (v : α) : upd h p v p = v := by simp [upd]

theorem compStore_frame {α : Type} (assign : α → List (Option α) → α) (h : Nat → α) (dst src : Option Nat) {q : Option Nat}
    (hq : NoShare dst q) : q.map (compStore assign h dst src) = q.map h := by
  cases q with
  | none => rfl
  | some q =>
    cases dst with
    | none => rfl
    | some p =>
      simp only [compStore, ptrAssign, Option.map_some, Option.some.injEq]
      exact upd_ne _ _ (fun e => hq p rfl (by rw [e]))

theorem commit_self (c : Commit) : c.assign [some c] = c := C02_commit_laws.idem c trivial

/-- what happens to the commit cells: nothing but the receiver's old commit changes -/
theorem commitStore_eq (h : Nat → Commit) (dst src : Option Nat) :
    commitAgain (compStore Commit.assign h dst src) (adopt dst src) src = compStore Commit.assign h dst src := by
  funext q
  cases dst with
  | none =>
    cases src with
    | none => rfl
    | some p =>
      simp only [adopt, compStore, commitAgain, ptrAssign, Option.map_some]
      by_cases e : q = p
      · subst e; rw [upd_self]; exact commit_self _
      · rw [upd_ne _ _ e]
  | some p =>
    simp only [adopt, compStore, commitAgain]
    by_cases e : q = p
    · subst e
      cases src with
      | none => simp [ptrAssign, upd_self, Commit.assign, assignAll]
      | some s =>
        simp only [ptrAssign, upd_self, Option.map_some]
        by_cases hs : s = q
        · subst hs; simp only [upd_self, commit_self]
        · rw [upd_ne _ _ hs]
          have laws := C02_commit_laws
          simp only [Commit.assign, assignAll]
          rw [laws.assoc _ _ _ trivial trivial trivial, laws.idem _ trivial]
    · simp only [ptrAssign]
      rw [upd_ne _ _ e]

/-- **C03 (frame, one source)**: assigning one source changes no other dataset, unless that dataset
shared a component with the receiver beforehand.  In particular the source itself is unchanged. -/
theorem C03_assign1_frame (h : Heap) (r a p : Nat) (hp : p ≠ r) (hap : Apart (h.ds r) (h.ds p)) :
    (h.assign r [some a]).load p = h.load p ∧ (h.assign r [some a]).ds p = h.ds p := by
  have hds : (h.assign1 r a).ds p = h.ds p := upd_ne _ _ hp
  refine ⟨?_, hds⟩
  obtain ⟨h1, h2, h3, h4, h5, h6, h7⟩ := hap
  simp only [Heap.assign, Heap.load, hds]
  simp only [Heap.assign1, commitStore_eq]
  rw [compStore_frame _ _ _ _ h1, compStore_frame _ _ _ _ h2, compStore_frame _ _ _ _ h3, compStore_frame _ _ _ _ h4,
    compStore_frame _ _ _ _ h5, compStore_frame _ _ _ _ h6, compStore_frame _ _ _ _ h7]

/-- every component of the receiver is present -/
def DsObj.Full (x : DsObj) : Prop :=
  x.commit ≠ none ∧ x.meta_ ≠ none ∧ x.readme ≠ none ∧ x.structure_ ≠ none ∧ x.stats ≠ none ∧ x.transform ≠ none ∧ x.viz ≠ none

theorem adopt_full {a b : Option Nat} (h : a ≠ none) : adopt a b = a := by cases a <;> simp_all [adopt]

/-- **C03 (frame, any sources)**: when the receiver has all its components, any number of sources
leaves every dataset that shares nothing with it unchanged. -/
theorem C03_assign_frame_full (h : Heap) (r p : Nat) (l : List (Option Nat)) (hf : (h.ds r).Full) (hp : p ≠ r)
    (hap : Apart (h.ds r) (h.ds p)) : (h.assign r l).load p = h.load p := by
  induction l generalizing h with
  | nil => rfl
  | cons o l ih =>
    cases o with
    | none => exact ih h hf hap
    | some a =>
      have fr := C03_assign1_frame h r a p hp hap
      simp only [Heap.assign] at fr ⊢
      have hr : ∀ {β : Type} (g : DsObj → β), (∀ x y : DsObj, x.commit = y.commit → x.meta_ = y.meta_ → x.readme = y.readme →
          x.structure_ = y.structure_ → x.stats = y.stats → x.transform = y.transform → x.viz = y.viz → g x = g y) →
          g ((h.assign1 r a).ds r) = g (h.ds r) := by
        intro β g hg
        obtain ⟨f1, f2, f3, f4, f5, f6, f7⟩ := hf
        have e : (h.assign1 r a).ds r = _ := upd_self _ _ _
        rw [e]
        exact hg _ _ (adopt_full f1) (adopt_full f2) (adopt_full f3) (adopt_full f4) (adopt_full f5) (adopt_full f6) (adopt_full f7)
      rw [ih]
      · exact fr.1
      · rw [hr DsObj.Full]
        · exact hf
        · intro x y e1 e2 e3 e4 e5 e6 e7; simp only [DsObj.Full, e1, e2, e3, e4, e5, e6, e7]
      · rw [fr.2, hr (fun x => Apart x (h.ds p))]
        · exact hap
        · intro x y e1 e2 e3 e4 e5 e6 e7; simp only [Apart, e1, e2, e3, e4, e5, e6, e7]

/-! ### Refinement of the value-level `Assign` -/

theorem comp_refine {α : Type} (assign : α → List (Option α) → α) (h : Nat → α) (dst src : Option Nat) :
    (adopt dst src).map (compStore assign h dst src) = assignComp assign (dst.map h) (src.map h) := by
  cases dst with
  | none => cases src <;> rfl
  | some p => simp [adopt, compStore, ptrAssign, upd_self, assignComp]

theorem load_assign1 (h : Heap) (r a : Nat) : (h.assign1 r a).load r = (h.load r).assign1 (h.load a) := by
  have e : (h.assign1 r a).ds r = _ := upd_self _ _ _
  simp only [Heap.load, e]
  simp only [Heap.assign1, commitStore_eq, comp_refine]
  simp only [Dataset.assign1, commit_once]
  rfl

theorem noShare_adopt {x y z : Option Nat} (h1 : NoShare x z) (h2 : NoShare y z) : NoShare (adopt x y) z := by
  cases x with
  | none => exact h2
  | some p => exact h1

/-- **C03 (refinement)**: when receiver and sources are different objects that pairwise share no
component, the receiver ends up with exactly the value-level merge of C02. -/
theorem C03_refines_value_assign (h : Heap) (r : Nat) (l : List Nat) (hr : ∀ a ∈ l, a ≠ r ∧ Apart (h.ds r) (h.ds a))
    (hl : l.Pairwise fun a b => Apart (h.ds a) (h.ds b)) :
    (h.assign r (l.map some)).load r = (h.load r).assign (l.map fun a => some (h.load a)) := by
  induction l generalizing h with
  | nil => rfl
  | cons a l ih =>
    obtain ⟨ha, hl⟩ := List.pairwise_cons.mp hl
    simp only [List.map_cons, Heap.assign, Dataset.assign, assignAll]
    have fr : ∀ b ∈ l, (h.assign1 r a).load b = h.load b ∧ (h.assign1 r a).ds b = h.ds b := fun b hb =>
      C03_assign1_frame h r a b (hr b (by simp [hb])).1 (hr b (by simp [hb])).2
    have e : (h.assign1 r a).ds r = _ := upd_self _ _ _
    rw [ih]
    · rw [load_assign1]
      simp only [Dataset.assign]
      congr 1
      exact List.map_congr_left (fun b hb => by rw [(fr b hb).1])
    · intro b hb
      refine ⟨(hr b (by simp [hb])).1, ?_⟩
      rw [(fr b hb).2, e]
      obtain ⟨h1, h2, h3, h4, h5, h6, h7⟩ := (hr b (by simp [hb])).2
      obtain ⟨g1, g2, g3, g4, g5, g6, g7⟩ := ha b hb
      exact ⟨noShare_adopt h1 g1, noShare_adopt h2 g2, noShare_adopt h3 g3, noShare_adopt h4 g4, noShare_adopt h5 g5,
        noShare_adopt h6 g6, noShare_adopt h7 g7⟩
    · refine hl.imp_of_mem ?_
      intro b c hb hc hbc
      rw [(fr b hb).2, (fr c hc).2]; exact hbc

/-! ### Where it goes wrong -/

/-- store with the receiver at 0 (empty) and two sources at 1 and 2 with commits "one" and "two" -/
def exHeap : Heap where
  ds p := if p = 1 then { commit := some 1 } else if p = 2 then { commit := some 2 } else {}
  commit p := if p = 1 then { title := b!"one" } else if p = 2 then { title := b!"two" } else {}
  meta_ _ := {}
  readme _ := {}
  structure_ _ := {}
  stats _ := {}
  transform _ := {}
  viz _ := {}

/-- **C03 is false for two sources**: `x.Assign(a, b)` overwrites the commit title of `a`, although
receiver and sources share nothing. -/
theorem C03_two_sources_violated : ∃ (h : Heap) (r a b : Nat), r ≠ a ∧ r ≠ b ∧ a ≠ b ∧ Apart (h.ds r) (h.ds a) ∧
    Apart (h.ds r) (h.ds b) ∧ Apart (h.ds a) (h.ds b) ∧ (h.assign r [some a, some b]).load a ≠ h.load a := by
  refine ⟨exHeap, 0, 1, 2, by decide, by decide, by decide, ?_, ?_, ?_, by decide +kernel⟩ <;>
    simp [Apart, NoShare, exHeap]

/-- The same damage occurs across two separate calls: after `x.Assign(a)`, assigning `b` changes `a`. -/
theorem C03_two_calls_violated : ∃ (h : Heap) (r a b : Nat),
    (h.assign r [some a]).load a = h.load a ∧ ((h.assign r [some a]).assign r [some b]).load a ≠ h.load a :=
  ⟨exHeap, 0, 1, 2, by decide +kernel, by decide +kernel⟩

/-- and it breaks last-wins (C02) when a source is repeated: `x.Assign(a, b, a)` ends with the title of `b`. -/
theorem C03_repeated_source_breaks_merge : ∃ (h : Heap) (r a b : Nat),
    (h.assign r [some a, some b, some a]).load r ≠ (h.load r).assign [some (h.load a), some (h.load b), some (h.load a)] ∧
    ((h.assign r [some a, some b, some a]).load r).commit.map Commit.title = (h.load b).commit.map Commit.title :=
  ⟨exHeap, 0, 1, 2, by decide +kernel, by decide +kernel⟩

example : (exHeap.assign 0 [some 1]).load 0 = { commit := some { title := b!"one" } } ∧
    (exHeap.assign 0 [some 1]).load 1 = exHeap.load 1 := by decide +kernel
example : Apart (exHeap.ds 0) (exHeap.ds 1) ∧ exHeap.load 1 ≠ exHeap.load 2 := by
  exact ⟨by simp [Apart, NoShare, exHeap], by decide +kernel⟩
example : (exHeap.assign 0 [some 1, some 2]).load 0 = (exHeap.load 0).assign [some (exHeap.load 1), some (exHeap.load 2)] := by
  decide +kernel

end Verif.Doc
