import Mathlib.Data.List.Forall2
import Verif.Model.Compare
import Verif.Props.Heap
import Verif.Props.Diff
/-
C68: comparing components – `ShallowCompare` and the comparisons of package dstest.
-/
set_option autoImplicit false
namespace Verif.Doc

/-! ### Specification -/

mutual
/-- no NaN anywhere in the value -/
def NaNFree : Val → Prop
  | .f64 x => f64NaN x = false
  | .arr l => NaNFreeL l
  | .obj m => NaNFreeF m
  | _ => True
def NaNFreeL : List Val → Prop
  | [] => True
  | v :: l => NaNFree v ∧ NaNFreeL l
def NaNFreeF : List (Bytes × Val) → Prop
  | [] => True
  | (_, v) :: m => NaNFree v ∧ NaNFreeF m
end

/-- the same data: deeply equal, and no NaN in it -/
def DataEq (v w : Val) : Prop := NaNFree v ∧ Diff.DeepEq v w

/-- the same map: both nil, or neither and with the same data under the same keys -/
def MapEq (a b : Option (List (Bytes × Val))) : Prop :=
  (a = none ∧ b = none) ∨ ∃ x y, a = some x ∧ b = some y ∧ DataEq (.obj x) (.obj y)

/-- both nil, or both there and related -/
def Both {α : Type} (R : α → α → Prop) (a b : Option α) : Prop :=
  (a = none ∧ b = none) ∨ ∃ x y, a = some x ∧ b = some y ∧ R x y

/-- steps agree in all fields -/
def StepEq (a b : TransformStep) : Prop :=
  a.name = b.name ∧ a.path = b.path ∧ a.syntaxName = b.syntaxName ∧ a.category = b.category ∧ DataEq a.script b.script

/-- the same steps, in the same order -/
def StepsEq (a b : Option (List (Option TransformStep))) : Prop := Both (List.Forall₂ (Both StepEq)) a b

/-! ### Values -/

theorem f64NaN_iff (x : UInt64) : f64NaN x = false ↔ x.toNat % 2 ^ 63 ≤ 0x7FF0000000000000 := by
  unfold f64NaN f64Mag
  rw [decide_eq_false_iff_not, Nat.not_lt]

theorem f64Eq_iff (a b : UInt64) : f64Eq a b = true ↔ f64NaN a = false ∧ (a = b ∨ (a <<< 1 = 0 ∧ b <<< 1 = 0)) := by
  rw [Diff.zero_iff, Diff.zero_iff]
  have ha := a.toNat_lt
  have hb := b.toNat_lt
  unfold f64Eq
  rw [Bool.and_eq_true, Bool.and_eq_true, Bool.not_eq_true', Bool.not_eq_true', f64NaN_iff, f64NaN_iff, decide_eq_true_eq]
  rw [← UInt64.toNat_inj, ← UInt64.toNat_inj, ← UInt64.toNat_inj, ← UInt64.toNat_inj, ← UInt64.toNat_inj]
  simp only [f64Key, f64Mag, UInt64.reduceToNat]
  split <;> split <;> omega

mutual
theorem deepEq_iff : ∀ v w : Val, deepEq v w = true ↔ DataEq v w
  | .f64 x, w => by
    cases w with
    | f64 y =>
      rw [deepEq, f64Eq_iff, DataEq, NaNFree]
      refine and_congr_right fun _ => ⟨?_, ?_⟩
      · rintro (rfl | ⟨h, h'⟩)
        · exact .same _
        · exact .zero h h'
      · intro h
        cases h with
        | same => exact .inl rfl
        | zero h h' => exact .inr ⟨h, h'⟩
    | _ => simp only [deepEq, Bool.false_eq_true, DataEq, false_iff, not_and]; intro _ h; cases h
  | .arr l, w => by
    cases w with
    | arr l' =>
      rw [deepEq, deepEqL_iff, DataEq, NaNFree]
      refine and_congr_right fun _ => ⟨.arr, ?_⟩
      intro h
      cases h with
      | same => exact (Diff.unsignL_iff l l).1 rfl
      | arr h => exact h
    | _ => simp only [deepEq, Bool.false_eq_true, DataEq, false_iff, not_and]; intro _ h; cases h
  | .obj m, w => by
    cases w with
    | obj m' =>
      rw [deepEq, deepEqF_iff, DataEq, NaNFree]
      refine and_congr_right fun _ => ⟨.obj, ?_⟩
      intro h
      cases h with
      | same => exact (Diff.unsignF_iff m m).1 rfl
      | obj h => exact h
    | _ => simp only [deepEq, Bool.false_eq_true, DataEq, false_iff, not_and]; intro _ h; cases h
  | .null, w => by
    cases w <;> simp only [deepEq, Bool.false_eq_true, DataEq, NaNFree, true_and, false_iff, true_iff]
    case null => exact .same _
    all_goals intro h; cases h
  | .bool b, w => by
    cases w <;> simp only [deepEq, Bool.false_eq_true, DataEq, NaNFree, true_and, false_iff, decide_eq_true_eq]
    case bool b' => exact ⟨fun h => h ▸ .same _, fun h => by cases h; rfl⟩
    all_goals intro h; cases h
  | .int b, w => by
    cases w <;> simp only [deepEq, Bool.false_eq_true, DataEq, NaNFree, true_and, false_iff, decide_eq_true_eq]
    case int b' => exact ⟨fun h => h ▸ .same _, fun h => by cases h; rfl⟩
    all_goals intro h; cases h
  | .gint b, w => by
    cases w <;> simp only [deepEq, Bool.false_eq_true, DataEq, NaNFree, true_and, false_iff, decide_eq_true_eq]
    case gint b' => exact ⟨fun h => h ▸ .same _, fun h => by cases h; rfl⟩
    all_goals intro h; cases h
  | .str b, w => by
    cases w <;> simp only [deepEq, Bool.false_eq_true, DataEq, NaNFree, true_and, false_iff, decide_eq_true_eq]
    case str b' => exact ⟨fun h => h ▸ .same _, fun h => by cases h; rfl⟩
    all_goals intro h; cases h
  | .bytes b, w => by
    cases w <;> simp only [deepEq, Bool.false_eq_true, DataEq, NaNFree, true_and, false_iff, decide_eq_true_eq]
    case bytes b' => exact ⟨fun h => h ▸ .same _, fun h => by cases h; rfl⟩
    all_goals intro h; cases h
theorem deepEqL_iff : ∀ l l' : List Val, deepEqL l l' = true ↔ NaNFreeL l ∧ Diff.DeepEqL l l'
  | [], l' => by
    cases l' with
    | nil => simp only [deepEqL, NaNFreeL, true_and, true_iff]; exact .nil
    | cons w l' => simp only [deepEqL, Bool.false_eq_true, false_iff, not_and]; intro _ h; cases h
  | v :: l, l' => by
    cases l' with
    | nil => simp only [deepEqL, Bool.false_eq_true, false_iff, not_and]; intro _ h; cases h
    | cons w l' =>
      rw [deepEqL, Bool.and_eq_true, deepEq_iff v w, deepEqL_iff l l', NaNFreeL, DataEq]
      constructor
      · rintro ⟨⟨h1, h2⟩, h3, h4⟩; exact ⟨⟨h1, h3⟩, .cons h2 h4⟩
      · rintro ⟨⟨h1, h3⟩, h⟩; cases h with | cons h2 h4 => exact ⟨⟨h1, h2⟩, h3, h4⟩
theorem deepEqF_iff : ∀ m m' : List (Bytes × Val), deepEqF m m' = true ↔ NaNFreeF m ∧ Diff.DeepEqF m m'
  | [], m' => by
    cases m' with
    | nil => simp only [deepEqF, NaNFreeF, true_and, true_iff]; exact .nil
    | cons w m' => simp only [deepEqF, Bool.false_eq_true, false_iff, not_and]; intro _ h; cases h
  | (k, v) :: m, m' => by
    cases m' with
    | nil => simp only [deepEqF, Bool.false_eq_true, false_iff, not_and]; intro _ h; cases h
    | cons kw m' =>
      obtain ⟨k', w⟩ := kw
      rw [deepEqF, Bool.and_eq_true, Bool.and_eq_true, decide_eq_true_eq, deepEq_iff v w, deepEqF_iff m m', NaNFreeF, DataEq]
      constructor
      · rintro ⟨⟨rfl, h1, h2⟩, h3, h4⟩; exact ⟨⟨h1, h3⟩, .cons h2 h4⟩
      · rintro ⟨⟨h1, h3⟩, h⟩; cases h with | cons h2 h4 => exact ⟨⟨rfl, h1, h2⟩, h3, h4⟩
end

theorem optEq_iff {α : Type} {eq : α → α → Bool} {R : α → α → Prop} (h : ∀ x y, eq x y = true ↔ R x y) (a b : Option α) :
    optEq eq a b = true ↔ Both R a b := by
  cases a <;> cases b <;> simp [optEq, Both, h]

theorem listEq_iff {α : Type} {eq : α → α → Bool} {R : α → α → Prop} (h : ∀ x y, eq x y = true ↔ R x y) (a b : List α) :
    listEq eq a b = true ↔ List.Forall₂ R a b := by
  induction a generalizing b with
  | nil => cases b <;> simp [listEq]
  | cons x a ih => cases b <;> simp [listEq, h, ih]

theorem mapEq_iff (a b : Option (List (Bytes × Val))) : optEq deepEqF a b = true ↔ MapEq a b :=
  optEq_iff (R := fun x y => DataEq (.obj x) (.obj y)) (fun x y => by rw [← deepEq_iff, deepEq]) a b

theorem stepEq_iff (a b : TransformStep) : a.deepEq b = true ↔ StepEq a b := by
  simp [TransformStep.deepEq, StepEq, deepEq_iff, and_assoc]

theorem stepsEq_iff (a b : Option (List (Option TransformStep))) :
    optEq (listEq (optEq TransformStep.deepEq)) a b = true ↔ StepsEq a b :=
  optEq_iff (listEq_iff (optEq_iff stepEq_iff)) a b

/-! ### The same data: symmetric, transitive, reflexive without NaN -/

theorem deep_symm {v w : Val} (h : Diff.DeepEq v w) : Diff.DeepEq w v := (Diff.unsign_iff w v).1 ((Diff.unsign_iff v w).2 h).symm
theorem deep_trans {u v w : Val} (h : Diff.DeepEq u v) (h' : Diff.DeepEq v w) : Diff.DeepEq u w :=
  (Diff.unsign_iff u w).1 (((Diff.unsign_iff u v).2 h).trans ((Diff.unsign_iff v w).2 h'))

mutual
theorem deepEq_comm : ∀ v w : Val, deepEq v w = deepEq w v
  | .f64 x, w => by cases w <;> simp [deepEq, f64Eq, Bool.and_comm, eq_comm]
  | .arr l, w => by cases w <;> simp [deepEq]; exact deepEqL_comm _ _
  | .obj l, w => by cases w <;> simp [deepEq]; exact deepEqF_comm _ _
  | .null, w => by cases w <;> simp [deepEq]
  | .bool _, w => by cases w <;> simp [deepEq, eq_comm]
  | .int _, w => by cases w <;> simp [deepEq, eq_comm]
  | .gint _, w => by cases w <;> simp [deepEq, eq_comm]
  | .str _, w => by cases w <;> simp [deepEq, eq_comm]
  | .bytes _, w => by cases w <;> simp [deepEq, eq_comm]
theorem deepEqL_comm : ∀ v w : List Val, deepEqL v w = deepEqL w v
  | [], w => by cases w <;> simp [deepEqL]
  | v :: l, [] => by simp [deepEqL]
  | v :: l, w :: l' => by rw [deepEqL, deepEqL, deepEq_comm v w, deepEqL_comm l l']
theorem deepEqF_comm : ∀ v w : List (Bytes × Val), deepEqF v w = deepEqF w v
  | [], w => by cases w <;> simp [deepEqF]
  | (k, v) :: l, [] => by simp [deepEqF]
  | (k, v) :: l, (k', w) :: l' => by
    rw [deepEqF, deepEqF, deepEq_comm v w, deepEqF_comm l l', decide_eq_decide.2 (eq_comm (a := k) (b := k'))]
end

theorem dataEq_symm {v w : Val} (h : DataEq v w) : DataEq w v := by
  rw [← deepEq_iff] at h ⊢; rw [deepEq_comm]; exact h

theorem dataEq_trans {u v w : Val} (h : DataEq u v) (h' : DataEq v w) : DataEq u w := ⟨h.1, deep_trans h.2 h'.2⟩

theorem dataEq_refl_iff (v : Val) : DataEq v v ↔ NaNFree v := ⟨fun h => h.1, fun h => ⟨h, .same _⟩⟩

/-! ### ShallowCompare -/

/-- readmes and vizs compare as equal exactly if all fields but the path and the files are the same -/
theorem C68_shallow (a b : Option Readme) (v w : Option Viz) :
    (Readme.shallowCompare a b = true ↔
      Both (fun r s => ({ r with path := [], scriptFile := none, renderedFile := none } : Readme) =
        { s with path := [], scriptFile := none, renderedFile := none }) a b) ∧
    (Viz.shallowCompare v w = true ↔
      Both (fun r s => ({ r with path := [], scriptFile := none, renderedFile := none } : Viz) =
        { s with path := [], scriptFile := none, renderedFile := none }) v w) := by
  constructor
  · cases a <;> cases b <;> simp [Readme.shallowCompare, Both]
    constructor <;> (intro h; simp_all)
  · cases v <;> cases w <;> simp [Viz.shallowCompare, Both]
    constructor <;> (intro h; simp_all)

/-- transforms agree in all exported fields but the path -/
def ShallowEq (a b : Transform) : Prop :=
  MapEq a.config b.config ∧ a.qri = b.qri ∧ a.resources = b.resources ∧ a.scriptPath = b.scriptPath ∧ a.text = b.text ∧
  a.secrets = b.secrets ∧ StepsEq a.steps b.steps ∧ a.syntaxName = b.syntaxName ∧ a.syntaxVersion = b.syntaxVersion ∧
  a.syntaxes = b.syntaxes

/-- transforms compare as equal exactly if all fields but the path and the script file are the same, where floats in
the configuration and in scripts of steps are compared as numbers -/
theorem C68_shallow_transform (a b : Option Transform) : Transform.shallowCompare a b = true ↔ Both ShallowEq a b := by
  cases a <;> cases b <;> simp [Transform.shallowCompare, Both, ShallowEq]
  rw [mapEq_iff, stepsEq_iff]
  constructor <;> (intro h; simp_all)

theorem both_symm {α : Type} {R : α → α → Prop} (h : ∀ x y, R x y → R y x) {a b : Option α} (hab : Both R a b) : Both R b a := by
  rcases hab with ⟨h1, h2⟩ | ⟨x, y, h1, h2, h3⟩
  · exact .inl ⟨h2, h1⟩
  · exact .inr ⟨y, x, h2, h1, h _ _ h3⟩

theorem both_trans {α : Type} {R : α → α → Prop} (h : ∀ x y z, R x y → R y z → R x z) {a b c : Option α}
    (hab : Both R a b) (hbc : Both R b c) : Both R a c := by
  rcases hab with ⟨h1, h2⟩ | ⟨x, y, h1, h2, h3⟩
  · rcases hbc with ⟨h4, h5⟩ | ⟨y', z, h4, h5, h6⟩
    · exact .inl ⟨h1, h5⟩
    · rw [h2] at h4; cases h4
  · rcases hbc with ⟨h4, h5⟩ | ⟨y', z, h4, h5, h6⟩
    · rw [h2] at h4; cases h4
    · rw [h2] at h4; cases h4
      exact .inr ⟨x, z, h1, h5, h _ _ _ h3 h6⟩

theorem mapEq_symm {a b : Option (List (Bytes × Val))} (h : MapEq a b) : MapEq b a := both_symm (fun _ _ => dataEq_symm) h
theorem mapEq_trans {a b c : Option (List (Bytes × Val))} (h : MapEq a b) (h' : MapEq b c) : MapEq a c :=
  both_trans (R := fun x y => DataEq (.obj x) (.obj y)) (fun _ _ _ => dataEq_trans) h h'

theorem stepEq_symm (a b : TransformStep) (h : StepEq a b) : StepEq b a :=
  ⟨h.1.symm, h.2.1.symm, h.2.2.1.symm, h.2.2.2.1.symm, dataEq_symm h.2.2.2.2⟩
theorem stepEq_trans (a b c : TransformStep) (h : StepEq a b) (h' : StepEq b c) : StepEq a c :=
  ⟨h.1.trans h'.1, h.2.1.trans h'.2.1, h.2.2.1.trans h'.2.2.1, h.2.2.2.1.trans h'.2.2.2.1, dataEq_trans h.2.2.2.2 h'.2.2.2.2⟩

theorem forall₂_symm {α : Type} {R : α → α → Prop} (h : ∀ x y, R x y → R y x) (a b : List α) (hab : List.Forall₂ R a b) :
    List.Forall₂ R b a := by
  induction hab with
  | nil => exact .nil
  | cons h1 _ ih => exact .cons (h _ _ h1) ih

theorem forall₂_trans {α : Type} {R : α → α → Prop} (h : ∀ x y z, R x y → R y z → R x z) (a b c : List α)
    (hab : List.Forall₂ R a b) (hbc : List.Forall₂ R b c) : List.Forall₂ R a c := by
  induction hab generalizing c with
  | nil => cases hbc; exact .nil
  | cons h1 _ ih =>
    cases hbc with
    | cons h2 hbc => exact .cons (h _ _ _ h1 h2) (ih _ hbc)

theorem stepsEq_symm {a b : Option (List (Option TransformStep))} (h : StepsEq a b) : StepsEq b a :=
  both_symm (forall₂_symm fun _ _ => both_symm stepEq_symm) h
theorem stepsEq_trans {a b c : Option (List (Option TransformStep))} (h : StepsEq a b) (h' : StepsEq b c) : StepsEq a c :=
  both_trans (R := List.Forall₂ (Both StepEq)) (forall₂_trans fun _ _ _ h h' => both_trans stepEq_trans h h') h h'

theorem both_eq_refl {α : Type} {R : α → α → Prop} (a : Option α) (h : ∀ x, a = some x → R x x) : Both R a a := by
  cases a with
  | none => exact .inl ⟨rfl, rfl⟩
  | some x => exact .inr ⟨x, x, rfl, rfl, h x rfl⟩

/-- there is no NaN in the configuration and in the scripts of steps -/
def Transform.NaNFree (q : Transform) : Prop :=
  (∀ m, q.config = some m → NaNFreeF m) ∧ ∀ l, q.steps = some l → ∀ s, some s ∈ l → Doc.NaNFree s.script

/-- `ShallowCompare` is symmetric and transitive, and every component is equal to itself (to a copy of itself, if it
is a transform: only without NaN) -/
theorem C68_shallow_equivalence :
    (∀ a b, Readme.shallowCompare a b = Readme.shallowCompare b a) ∧
    (∀ a b c, Readme.shallowCompare a b = true → Readme.shallowCompare b c = true → Readme.shallowCompare a c = true) ∧
    (∀ a, Readme.shallowCompare a a = true) ∧
    (∀ a b, Viz.shallowCompare a b = Viz.shallowCompare b a) ∧
    (∀ a b c, Viz.shallowCompare a b = true → Viz.shallowCompare b c = true → Viz.shallowCompare a c = true) ∧
    (∀ a, Viz.shallowCompare a a = true) ∧
    (∀ a b, Transform.shallowCompare a b = Transform.shallowCompare b a) ∧
    (∀ a b c, Transform.shallowCompare a b = true → Transform.shallowCompare b c = true → Transform.shallowCompare a c = true) ∧
    (∀ a, Transform.shallowCompare a a = true ↔ ∀ q, a = some q → q.NaNFree) := by
  refine ⟨?_, ?_, ?_, ?_, ?_, ?_, ?_, ?_, ?_⟩
  · intro a b
    rw [Bool.eq_iff_iff, (C68_shallow a b none none).1, (C68_shallow b a none none).1]
    exact ⟨both_symm fun _ _ => Eq.symm, both_symm fun _ _ => Eq.symm⟩
  · intro a b c h h'
    rw [(C68_shallow _ _ none none).1] at h h' ⊢
    exact both_trans (fun _ _ _ h h' => h.trans h') h h'
  · intro a
    rw [(C68_shallow _ _ none none).1]
    exact both_eq_refl _ fun _ _ => rfl
  · intro a b
    rw [Bool.eq_iff_iff, (C68_shallow none none a b).2, (C68_shallow none none b a).2]
    exact ⟨both_symm fun _ _ => Eq.symm, both_symm fun _ _ => Eq.symm⟩
  · intro a b c h h'
    rw [(C68_shallow none none _ _).2] at h h' ⊢
    exact both_trans (fun _ _ _ h h' => h.trans h') h h'
  · intro a
    rw [(C68_shallow none none _ _).2]
    exact both_eq_refl _ fun _ _ => rfl
  · have H : ∀ x y : Transform, ShallowEq x y → ShallowEq y x := fun x y h =>
      ⟨mapEq_symm h.1, h.2.1.symm, h.2.2.1.symm, h.2.2.2.1.symm, h.2.2.2.2.1.symm, h.2.2.2.2.2.1.symm, stepsEq_symm h.2.2.2.2.2.2.1,
        h.2.2.2.2.2.2.2.1.symm, h.2.2.2.2.2.2.2.2.1.symm, h.2.2.2.2.2.2.2.2.2.symm⟩
    intro a b
    rw [Bool.eq_iff_iff, C68_shallow_transform, C68_shallow_transform]
    exact ⟨both_symm H, both_symm H⟩
  · intro a b c h h'
    rw [C68_shallow_transform] at h h' ⊢
    refine both_trans (fun x y z h h' => ?_) h h'
    obtain ⟨h1, h2, h3, h4, h5, h6, h7, h8, h9, h10⟩ := h
    obtain ⟨g1, g2, g3, g4, g5, g6, g7, g8, g9, g10⟩ := h'
    exact ⟨mapEq_trans h1 g1, h2.trans g2, h3.trans g3, h4.trans g4, h5.trans g5, h6.trans g6, stepsEq_trans h7 g7, h8.trans g8,
      h9.trans g9, h10.trans g10⟩
  · intro a
    rw [C68_shallow_transform]
    constructor
    · rintro (⟨h, _⟩ | ⟨x, y, h1, h2, h3⟩) q hq
      · rw [h] at hq; cases hq
      · rw [h1] at h2 hq; cases h2; cases hq
        refine ⟨fun m hm => ?_, fun l hl s hs => ?_⟩
        · rcases h3.1 with ⟨h, _⟩ | ⟨x', y', h, _, h'⟩
          · rw [h] at hm; cases hm
          · rw [h] at hm; cases hm; exact h'.1
        · rcases h3.2.2.2.2.2.2.1 with ⟨h, _⟩ | ⟨x', y', h, hy, h'⟩
          · rw [h] at hl; cases hl
          · rw [h] at hl hy; cases hl; cases hy
            have : ∀ l l' : List (Option TransformStep), List.Forall₂ (Both StepEq) l l' → ∀ s, some s ∈ l → Doc.NaNFree s.script := by
              intro l l' hf
              induction hf with
              | nil => intro s hs; cases hs
              | cons h1 _ ih =>
                intro s hs
                rcases List.mem_cons.1 hs with rfl | hs
                · rcases h1 with ⟨h, _⟩ | ⟨_, _, h, _, h'⟩
                  · cases h
                  · cases h; exact h'.2.2.2.2.1
                · exact ih s hs
            exact this _ _ h' s hs
    · intro h
      refine both_eq_refl _ fun q hq => ?_
      obtain ⟨h1, h2⟩ := h q hq
      refine ⟨both_eq_refl (R := fun x y => DataEq (.obj x) (.obj y)) _ (fun m hm => ⟨h1 m hm, .same _⟩), rfl, rfl, rfl, rfl, rfl, ?_, rfl, rfl, rfl⟩
      refine both_eq_refl _ fun l hl => ?_
      have h3 := h2 l hl
      clear h2 hl h1 h hq
      induction l with
      | nil => exact .nil
      | cons o l ih =>
        refine .cons (both_eq_refl _ fun s hs => ⟨rfl, rfl, rfl, rfl, h3 s (hs ▸ .head _), .same _⟩) (ih fun s hs => h3 s (.tail _ hs))

/-! ### Package dstest -/

/-- structures agree in all fields -/
def StructureEq (a b : Structure) : Prop :=
  a.checksum = b.checksum ∧ a.compression = b.compression ∧ a.depth = b.depth ∧ a.encoding = b.encoding ∧
  a.errCount = b.errCount ∧ a.entries = b.entries ∧ a.format = b.format ∧ MapEq a.formatConfig b.formatConfig ∧
  a.length = b.length ∧ a.path = b.path ∧ a.qri = b.qri ∧ MapEq a.schema b.schema ∧ a.strict = b.strict

/-- transforms agree in all exported fields -/
def TransformEq (a b : Transform) : Prop := ShallowEq a b ∧ a.path = b.path

/-- datasets agree in all exported fields but the kind (`Qri`) and the number of versions; of metas, values of
arbitrary names are not compared -/
def DatasetEq (a b : Dataset) : Prop :=
  DataEq a.body b.body ∧ a.bodyBytes = b.bodyBytes ∧ a.bodyPath = b.bodyPath ∧ a.commit = b.commit ∧ a.id = b.id ∧
  Both (fun m n => ({ m with arbitrary := none } : Meta) = { n with arbitrary := none }) a.meta_ b.meta_ ∧
  a.name = b.name ∧ a.path = b.path ∧ a.peername = b.peername ∧ a.previousPath = b.previousPath ∧ a.profileID = b.profileID ∧
  Both (fun r s => ({ r with scriptFile := none, renderedFile := none } : Readme) = { s with scriptFile := none, renderedFile := none })
    a.readme b.readme ∧
  Both StructureEq a.structure_ b.structure_ ∧
  Both (fun s t => s.path = t.path ∧ s.qri = t.qri ∧ DataEq s.stats t.stats) a.stats b.stats ∧
  Both TransformEq a.transform b.transform ∧
  Both (fun r s => ({ r with scriptFile := none, renderedFile := none } : Viz) = { s with scriptFile := none, renderedFile := none })
    a.viz b.viz

theorem structureEq_iff (a b : Structure) : a.cmpEq b = true ↔ StructureEq a b := by
  simp [Structure.cmpEq, StructureEq, mapEq_iff, and_assoc]

theorem transformEq_iff (a b : Transform) : a.cmpEq b = true ↔ TransformEq a b := by
  simp only [Transform.cmpEq, TransformEq, ShallowEq, Bool.and_eq_true, decide_eq_true_eq, mapEq_iff, stepsEq_iff]
  constructor <;> (intro h; simp_all)

/-- two commits compare as equal exactly if they are equal, nil being the empty commit -/
theorem C68_commits (a b : Option Commit) :
    (compareCommits false a b = true ↔ a.getD {} = b.getD {}) ∧
    (compareCommits true a b = true ↔ ({ a.getD {} with path := [] } : Commit) = b.getD {}) := by
  have H : ∀ o : Option Commit, Commit.assign {} [o] = o.getD {} := by
    intro o
    cases o with
    | none => rfl
    | some c => exact C02_commit_laws.left c trivial
  simp [compareCommits, Commit.cmpEq, H, Commit.dropTransient]

/-- two metas compare as equal exactly if they agree in all fields but the values of arbitrary names -/
theorem C68_metas (a b : Option Meta) :
    (compareMetas false a b = true ↔ ({ a.getD {} with arbitrary := none } : Meta) = { b.getD {} with arbitrary := none }) ∧
    (compareMetas true a b = true ↔
      ({ a.getD {} with arbitrary := none, path := [] } : Meta) = { b.getD {} with arbitrary := none }) := by
  have H : ∀ o : Option Meta, Meta.assign {} [o] = o.getD {} := by
    intro o
    cases o with
    | none => rfl
    | some c => exact C02_meta_laws.left c trivial
  simp [compareMetas, Meta.cmpEq, H, Meta.dropTransient]

/-- two structures compare as equal exactly if they agree in all fields -/
theorem C68_structures (a b : Option Structure) :
    (compareStructures false a b = true ↔ StructureEq (a.getD {}) (b.getD {})) ∧
    (compareStructures true a b = true ↔ StructureEq { a.getD {} with path := [] } (b.getD {})) := by
  have H : ∀ o : Option Structure, Structure.assign {} [o] = o.getD {} := by
    intro o
    cases o with
    | none => rfl
    | some c => exact C02_structure_laws.left c trivial
  simp [compareStructures, structureEq_iff, H, Structure.dropTransient]

theorem assign_empty (o : Option Dataset) : Dataset.assign {} [o] = { o.getD {} with qri := [], numVersions := 0 } := by
  cases o with
  | none => rfl
  | some d =>
    have hc : (assignComp Commit.assign none d.commit).map (fun c => c.assign [d.commit]) = d.commit := by
      cases h : d.commit with
      | none => rfl
      | some c => simp [assignComp, commit_self]
    simp only [Dataset.assign, assignAll, Dataset.assign1, setVal_left, setOpt_left, setStr_left, hc, Option.getD_some]
    simp [assignComp]

theorem datasetEq_iff (a b : Dataset) (hq : a.qri = b.qri) (hn : a.numVersions = b.numVersions) : a.cmpEq b = true ↔ DatasetEq a b := by
  have e1 : optEq Commit.cmpEq a.commit b.commit = true ↔ a.commit = b.commit := by
    cases a.commit <;> cases b.commit <;> simp [optEq, Commit.cmpEq]
  have e2 : optEq Meta.cmpEq a.meta_ b.meta_ = true ↔ _ :=
    optEq_iff (R := fun m n => ({ m with arbitrary := none } : Meta) = { n with arbitrary := none }) (fun x y => by simp [Meta.cmpEq]) _ _
  have e3 : optEq Readme.cmpEq a.readme b.readme = true ↔ _ :=
    optEq_iff (R := fun r s => ({ r with scriptFile := none, renderedFile := none } : Readme) = { s with scriptFile := none, renderedFile := none })
      (fun x y => by simp only [Readme.cmpEq, Bool.and_eq_true, decide_eq_true_eq, Readme.mk.injEq]; constructor <;> (intro h; simp_all)) _ _
  have e4 : optEq Viz.cmpEq a.viz b.viz = true ↔ _ :=
    optEq_iff (R := fun r s => ({ r with scriptFile := none, renderedFile := none } : Viz) = { s with scriptFile := none, renderedFile := none })
      (fun x y => by simp only [Viz.cmpEq, Bool.and_eq_true, decide_eq_true_eq, Viz.mk.injEq]; constructor <;> (intro h; simp_all)) _ _
  have e5 : optEq Stats.cmpEq a.stats b.stats = true ↔ _ :=
    optEq_iff (R := fun s t => s.path = t.path ∧ s.qri = t.qri ∧ DataEq s.stats t.stats)
      (fun x y => by simp [Stats.cmpEq, deepEq_iff, and_assoc]) _ _
  simp only [Dataset.cmpEq, Bool.and_eq_true, decide_eq_true_eq, e1, e2, e3, e4, e5, optEq_iff structureEq_iff, optEq_iff transformEq_iff,
    deepEq_iff, hq, hn, and_true, DatasetEq, and_assoc]

/-- two datasets compare as equal exactly if they agree in all exported fields but `Qri` and `NumVersions`, nil being
the empty dataset -/
theorem C68_datasets (a b : Option Dataset) : compareDatasets false a b = true ↔ DatasetEq (a.getD {}) (b.getD {}) := by
  simp only [compareDatasets, assign_empty, Bool.false_eq_true, if_false]
  refine (datasetEq_iff _ _ ?_ ?_).trans ?_ <;> rfl

/-- with the option to drop transient values these are dropped of the first dataset only: the comparison succeeds
exactly if the second dataset has none and the rest agrees -/
theorem C68_datasets_drop (a b : Option Dataset) : compareDatasets true a b = true ↔
    DatasetEq { a.getD {} with body := .null, bodyBytes := none, name := [], peername := [], path := [], profileID := [] } (b.getD {}) := by
  simp only [compareDatasets, assign_empty, if_true]
  refine (datasetEq_iff _ _ ?_ ?_).trans ?_ <;> rfl

/-- hence a dataset with a name, a body, a path … is not equal to itself if transient values are dropped -/
theorem C68_drop_self (d : Dataset) :
    compareDatasets true (some d) (some d) = true ↔
      compareDatasets false (some d) (some d) = true ∧
        d.body = .null ∧ d.bodyBytes = none ∧ d.name = [] ∧ d.peername = [] ∧ d.path = [] ∧ d.profileID = [] := by
  rw [C68_datasets_drop, C68_datasets]
  simp only [Option.getD_some]
  constructor
  · intro h
    obtain ⟨h1, h2, h3, h4, h5, h6, h7, h8, h9, h10, h11, h12⟩ := h
    simp only at h1 h2 h3 h4 h5 h6 h7 h8 h9 h10 h11 h12
    have hb : d.body = .null := by
      have := h1.2
      generalize d.body = v at this
      cases this; rfl
    refine ⟨⟨?_, rfl, rfl, rfl, rfl, h6, rfl, rfl, rfl, rfl, rfl, h12⟩, hb, h2.symm, h7.symm, h9.symm, h8.symm, h11.symm⟩
    rw [hb]; exact ⟨trivial, .same _⟩
  · rintro ⟨h, hb, h2, h3, h4, h5, h6⟩
    have : ({ d with body := .null, bodyBytes := none, name := [], peername := [], path := [], profileID := [] } : Dataset) = d := by
      cases d; simp_all
    rw [this]; exact h

/-- `OptDropTransientValues` "drops transients on both dataset before making the comparison": not so, and
`CompareDatasets` is not "a strict comparison of all exported fields" -/
theorem C68_violated :
    (∃ d : Dataset, d.dropTransient = {} ∧ compareDatasets true (some d) (some d) = false) ∧
    (∃ d e : Dataset, d.qri ≠ e.qri ∧ d.numVersions ≠ e.numVersions ∧ compareDatasets false (some d) (some e) = true) ∧
    (∃ d e : Dataset, compareDatasets true (some d) (some e) = true ∧ compareDatasets true (some e) (some d) = false) := by
  refine ⟨⟨{ name := b!"x" }, by decide, by decide⟩, ⟨{ qri := b!"ds:0", numVersions := 3 }, {}, by decide, by decide, by decide⟩,
    ⟨{ name := b!"x" }, {}, by decide, by decide⟩⟩

/-! ### No side effects -/

theorem assign_fresh (h : Heap) (r : Nat) (o : Option Nat) (hr : h.ds r = {}) :
    ((h.assign r [o]).commit = h.commit ∧ (h.assign r [o]).meta_ = h.meta_ ∧ (h.assign r [o]).readme = h.readme ∧
      (h.assign r [o]).structure_ = h.structure_ ∧ (h.assign r [o]).stats = h.stats ∧ (h.assign r [o]).transform = h.transform ∧
      (h.assign r [o]).viz = h.viz) ∧ ∀ p, p ≠ r → (h.assign r [o]).ds p = h.ds p := by
  cases o with
  | none => exact ⟨⟨rfl, rfl, rfl, rfl, rfl, rfl, rfl⟩, fun _ _ => rfl⟩
  | some a =>
    simp only [Heap.assign, Heap.assign1, hr, commitStore_eq]
    exact ⟨⟨rfl, rfl, rfl, rfl, rfl, rfl, rfl⟩, fun p hp => upd_ne _ _ hp⟩

/-- `CompareDatasets` changes no component and no dataset other than its two copies, and what it answers depends only
on the two documents -/
theorem C68_pure (h : Heap) (r q : Nat) (drop : Bool) (a b : Option Nat) (hrq : r ≠ q) (ha : ∀ p, a = some p → p ≠ r ∧ p ≠ q)
    (hb : ∀ p, b = some p → p ≠ r ∧ p ≠ q) :
    (h.compareDatasets r q drop a b).1 = compareDatasets drop (a.map h.load) (b.map h.load) ∧
    ∀ p, p ≠ r → p ≠ q → (h.compareDatasets r q drop a b).2.load p = h.load p ∧
      (h.compareDatasets r q drop a b).2.commit = h.commit ∧ (h.compareDatasets r q drop a b).2.meta_ = h.meta_ ∧
      (h.compareDatasets r q drop a b).2.readme = h.readme ∧ (h.compareDatasets r q drop a b).2.structure_ = h.structure_ ∧
      (h.compareDatasets r q drop a b).2.stats = h.stats ∧ (h.compareDatasets r q drop a b).2.transform = h.transform ∧
      (h.compareDatasets r q drop a b).2.viz = h.viz := by
  have s1 := assign_fresh (h.alloc r) r a (upd_self _ _ _)
  generalize e1 : (h.alloc r).assign r [a] = h1 at s1
  have s2 := assign_fresh (h1.alloc q) q b (upd_self _ _ _)
  generalize e2 : (h1.alloc q).assign q [b] = h2 at s2
  have la : ∀ p, p ≠ r → (h.alloc r).ds p = h.ds p := fun p hp => upd_ne _ _ hp
  have lb : ∀ p, p ≠ q → (h1.alloc q).ds p = h1.ds p := fun p hp => upd_ne _ _ hp
  -- documents
  have loads : ∀ p, p ≠ r → p ≠ q → h2.load p = h.load p := by
    intro p hr hq
    obtain ⟨⟨c1, c2, c3, c4, c5, c6, c7⟩, c8⟩ := s1
    obtain ⟨⟨d1, d2, d3, d4, d5, d6, d7⟩, d8⟩ := s2
    simp only [Heap.load, d8 p hq, lb p hq, c8 p hr, la p hr, d1, d2, d3, d4, d5, d6, d7]
    simp only [Heap.alloc, c1, c2, c3, c4, c5, c6, c7]
  have load1 : ∀ p, p ≠ r → h1.load p = h.load p := by
    intro p hr
    obtain ⟨⟨c1, c2, c3, c4, c5, c6, c7⟩, c8⟩ := s1
    simp only [Heap.load, c8 p hr, la p hr]
    simp only [Heap.alloc, c1, c2, c3, c4, c5, c6, c7]
  have loadr : h2.load r = Dataset.assign {} [a.map h.load] := by
    have : h2.load r = h1.load r := by
      obtain ⟨⟨d1, d2, d3, d4, d5, d6, d7⟩, d8⟩ := s2
      simp only [Heap.load, d8 r hrq, lb r hrq, d1, d2, d3, d4, d5, d6, d7]
      simp only [Heap.alloc]
    rw [this, ← e1]
    cases a with
    | none => simp [Heap.assign, Heap.load, Heap.alloc, upd_self, Dataset.assign, assignAll]
    | some p =>
      have hp := (ha p rfl).1
      simp only [Heap.assign, load_assign1, Dataset.assign, assignAll, Option.map_some]
      congr 1
      · simp [Heap.load, Heap.alloc, upd_self]
      · simp [Heap.load, Heap.alloc, upd_ne _ _ hp]
  have loadq : h2.load q = Dataset.assign {} [b.map h.load] := by
    rw [← e2]
    cases b with
    | none => simp [Heap.assign, Heap.load, Heap.alloc, upd_self, Dataset.assign, assignAll]
    | some p =>
      obtain ⟨hp, hp'⟩ := hb p rfl
      simp only [Heap.assign, load_assign1, Dataset.assign, assignAll, Option.map_some]
      congr 1
      · simp [Heap.load, Heap.alloc, upd_self]
      · rw [← load1 p hp]
        simp [Heap.load, Heap.alloc, upd_ne _ _ hp']
  have comps : h2.commit = h.commit ∧ h2.meta_ = h.meta_ ∧ h2.readme = h.readme ∧ h2.structure_ = h.structure_ ∧ h2.stats = h.stats ∧
      h2.transform = h.transform ∧ h2.viz = h.viz := by
    obtain ⟨⟨c1, c2, c3, c4, c5, c6, c7⟩, c8⟩ := s1
    obtain ⟨⟨d1, d2, d3, d4, d5, d6, d7⟩, d8⟩ := s2
    exact ⟨d1.trans c1, d2.trans c2, d3.trans c3, d4.trans c4, d5.trans c5, d6.trans c6, d7.trans c7⟩
  have dropr : ((h2.dropTransient r).dropTransient r).load r = (h2.load r).dropTransient.dropTransient := by
    simp [Heap.load, Heap.dropTransient, upd_self, Dataset.dropTransient]
  have dropp : ∀ p, p ≠ r → ((h2.dropTransient r).dropTransient r).load p = h2.load p := by
    intro p hp
    simp [Heap.load, Heap.dropTransient, upd_ne _ _ hp]
  simp only [Heap.compareDatasets, e1, e2]
  cases drop with
  | false =>
    refine ⟨?_, fun p hr hq => ⟨loads p hr hq, comps⟩⟩
    simp only [Bool.false_eq_true, if_false, loadr, loadq, compareDatasets]
  | true =>
    refine ⟨?_, fun p hr hq => ⟨(dropp p hr).trans (loads p hr hq), comps⟩⟩
    simp only [if_true, dropr, dropp q hrq.symm, loadr, loadq, compareDatasets]

/-! ### Examples -/

example : Readme.shallowCompare (some { text := b!"a", path := b!"/p" }) (some { text := b!"a", scriptFile := some 3 }) = true ∧
    Readme.shallowCompare (some { text := b!"a" }) (some { text := b!"b" }) = false ∧
    Readme.shallowCompare (some {}) none = false := by decide

-- both zeros are the same number, no NaN is, and a nil map is not an empty one
example : Transform.shallowCompare (some { config := some [(b!"x", .f64 0)] }) (some { config := some [(b!"x", .f64 0x8000000000000000)] }) = true ∧
    Transform.shallowCompare (some { config := some [(b!"x", .f64 0x7FF8000000000001)] })
      (some { config := some [(b!"x", .f64 0x7FF8000000000001)] }) = false ∧
    Transform.shallowCompare (some { config := some [] }) (some {}) = false ∧
    Transform.shallowCompare (some { steps := some [some { script := .int 1 }] }) (some { steps := some [some { script := .gint 1 }] }) = false := by
  decide +kernel

example : compareMetas false (some { arbitrary := some [(b!"x", .int 1)], title := b!"t" }) (some { title := b!"t" }) = true ∧
    compareMetas false (some { title := b!"t" }) (some { title := b!"u" }) = false := by decide

example : compareDatasets true (some { name := b!"n", meta_ := some { title := b!"t" } }) (some { meta_ := some { title := b!"t" } }) = true ∧
    compareDatasets true (some { meta_ := some { title := b!"t" } }) (some { name := b!"n", meta_ := some { title := b!"t" } }) = false ∧
    compareDatasets false none (some {}) = true := by decide

end Verif.Doc
