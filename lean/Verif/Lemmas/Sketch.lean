import Verif.Model.Sketch
import Verif.Lemmas.Ieee
import Mathlib.Analysis.Real.Sqrt
import Mathlib.Tactic.Order
import Mathlib.Tactic.Linarith
import Mathlib.Tactic.Ring
import Mathlib.Tactic.FieldSimp
set_option autoImplicit false
set_option linter.unusedSimpArgs false
namespace Verif.Sketch

/-! ### Search -/

theorem searchLoop_spec (f : Nat → Bool) (fuel i j : Nat) (hf : j - i ≤ fuel) (hij : i ≤ j) :
    i ≤ searchLoop f fuel i j ∧ searchLoop f fuel i j ≤ j ∧
      (searchLoop f fuel i j < j → f (searchLoop f fuel i j) = true) ∧ (i < searchLoop f fuel i j → f (searchLoop f fuel i j - 1) = false) := by
  induction fuel generalizing i j with
  | zero =>
    have : i = j := by omega
    subst this
    simp [searchLoop]
  | succ n ih =>
    simp only [searchLoop]
    split
    · rename_i hlt
      cases hh : f ((i + j) / 2) with
      | true =>
        obtain ⟨h1, h2, h3, h4⟩ := ih i ((i + j) / 2) (by omega) (by omega)
        simp only [if_true]
        refine ⟨h1, by omega, fun h => ?_, h4⟩
        by_cases he : searchLoop f n i ((i + j) / 2) < (i + j) / 2
        · exact h3 he
        · have : searchLoop f n i ((i + j) / 2) = (i + j) / 2 := by omega
          rw [this]; exact hh
      | false =>
        obtain ⟨h1, h2, h3, h4⟩ := ih ((i + j) / 2 + 1) j (by omega) (by omega)
        simp only [Bool.false_eq_true, if_false]
        refine ⟨by omega, h2, h3, fun h => ?_⟩
        by_cases he : (i + j) / 2 + 1 < searchLoop f n ((i + j) / 2 + 1) j
        · exact h4 he
        · have : searchLoop f n ((i + j) / 2 + 1) j = (i + j) / 2 + 1 := by omega
          rw [this, Nat.add_sub_cancel]; exact hh
    · simp; omega

theorem search_spec (n : Nat) (f : Nat → Bool) :
    search n f ≤ n ∧ (search n f < n → f (search n f) = true) ∧ (0 < search n f → f (search n f - 1) = false) := by
  obtain ⟨_, h2, h3, h4⟩ := searchLoop_spec f n 0 n (by omega) (by omega)
  exact ⟨h2, h3, h4⟩

/-- on a condition that once true stays true, the search finds where it begins -/
theorem search_mono (n : Nat) (f : Nat → Bool) (hm : ∀ i j, i ≤ j → j < n → f i = true → f j = true) (i : Nat) (hi : i < n) :
    f i = true ↔ search n f ≤ i := by
  obtain ⟨h1, h2, h3⟩ := search_spec n f
  constructor
  · intro h
    rcases Nat.lt_or_ge i (search n f) with hl | hl
    · have := hm i (search n f - 1) (by omega) (by omega) h
      rw [h3 (by omega)] at this
      cases this
    · exact hl
  · intro h
    exact hm _ i h hi (h2 (by omega))

/-! ### Size -/

section
variable {α : Type} (N : Num α)

theorem closest_range (i : Nat) (cs : List (Centroid α)) (mi : Nat) (md : α) :
    closest N i cs mi md = mi ∨ (i ≤ closest N i cs mi md ∧ closest N i cs mi md + 1 < i + cs.length) := by
  induction cs generalizing i mi md with
  | nil => left; rfl
  | cons c cs ih =>
    cases cs with
    | nil => left; rfl
    | cons d cs =>
      simp only [closest]
      split
      · rcases ih (i + 1) i (N.sub d.p c.p) with h | ⟨h1, h2⟩
        · right; rw [h]; simp
        · right; simp at h2 ⊢; omega
      · rcases ih (i + 1) mi md with h | ⟨h1, h2⟩
        · left; exact h
        · right; simp at h2 ⊢; omega

theorem mergeAt_some (i : Nat) (cs : List (Centroid α)) (h : i + 1 < cs.length) :
    ∃ a c d b, cs = a ++ c :: d :: b ∧ a.length = i ∧ mergeAt N i cs = some (a ++ c.merge N d :: b) := by
  induction i generalizing cs with
  | zero =>
    match cs, h with
    | c :: d :: b, _ => exact ⟨[], c, d, b, rfl, rfl, rfl⟩
  | succ i ih =>
    match cs, h with
    | x :: cs, h =>
      obtain ⟨a, c, d, b, e, hl, hm⟩ := ih cs (by simpa using h)
      exact ⟨x :: a, c, d, b, by rw [e]; rfl, by simp [hl], by simp [mergeAt, hm]⟩

theorem insertIdx_eq {β : Type} (x : β) (k : Nat) (l : List β) (h : k ≤ l.length) : l.insertIdx k x = l.take k ++ x :: l.drop k := by
  induction k generalizing l with
  | zero => simp
  | succ k ih =>
    cases l with
    | nil => simp at h
    | cons y l => simp [ih l (by simpa using h)]

/-- the centroids around the place of a value -/
structure Place (value : α) (a b : List (Centroid α)) : Prop where
  before : ∀ c, a.getLast? = some c → N.le value c.p = false
  after : ∀ c, b.head? = some c → N.le value c.p = true

/-- what an insertion does to the centroids -/
inductive Step (h : Sketch α) (value : α) (count : Int) : List (Centroid α) → Prop
  | hit (a b : List (Centroid α)) (c : Centroid α) (e : h.cs = a ++ c :: b) (pl : Place N value a (c :: b)) (he : N.eq c.p value = true) :
      Step h value count (a ++ { c with m := N.add c.m (N.mul (N.sign c.m) (N.ofInt count)) } :: b)
  | room (a b : List (Centroid α)) (e : h.cs = a ++ b) (pl : Place N value a b) (ne : ∀ c, b.head? = some c → N.eq c.p value = false)
      (hl : h.cs.length + 1 < h.cap) : Step h value count (a ++ { p := value, m := N.ofInt count } :: b)
  | full (a b x y : List (Centroid α)) (c d : Centroid α) (e : h.cs = a ++ b) (pl : Place N value a b)
      (ne : ∀ c, b.head? = some c → N.eq c.p value = false) (hl : h.cap ≤ h.cs.length + 1)
      (e' : a ++ { p := value, m := N.ofInt count } :: b = x ++ c :: d :: y)
      (hx : x.length = closest N 0 (x ++ c :: d :: y) 0 N.maxFinite) : Step h value count (x ++ c.merge N d :: y)

theorem at_eq (cs : List (Centroid α)) (q : Centroid α → Bool) (i : Nat) (c : Centroid α) (h : cs[i]? = some c) : at_ cs q i = q c := by
  simp [at_, h]

theorem place_of_search (cs : List (Centroid α)) (value : α) :
    search cs.length (at_ cs fun c => N.le value c.p) ≤ cs.length ∧
    Place N value (cs.take (search cs.length (at_ cs fun c => N.le value c.p))) (cs.drop (search cs.length (at_ cs fun c => N.le value c.p))) := by
  obtain ⟨h1, h2, h3⟩ := search_spec cs.length (at_ cs fun c => N.le value c.p)
  generalize search cs.length (at_ cs fun c => N.le value c.p) = k at *
  refine ⟨h1, ⟨fun c hc => ?_, fun c hc => ?_⟩⟩
  · rw [List.getLast?_eq_getElem?] at hc
    rcases Nat.eq_zero_or_pos k with h0 | h0
    · subst h0; simp at hc
    · have hk := h3 h0
      have hl : (cs.take k).length - 1 = k - 1 := by rw [List.length_take]; omega
      rw [hl, List.getElem?_take, if_pos (by omega)] at hc
      rwa [at_eq cs _ _ c hc] at hk
  · rw [List.head?_eq_getElem?, List.getElem?_drop, Nat.add_zero] at hc
    have hk := h2 (List.getElem?_eq_some_iff.mp hc).1
    rwa [at_eq cs _ _ c hc] at hk

theorem addMany_step (h : Sketch α) (value : α) (count : Int) (hc : h.cs.length < h.cap) (h2 : 2 ≤ h.cap) :
    ∃ cs', Step N h value count cs' ∧
      addMany N h value count = some
        { cs := cs', cap := h.cap, count := N.add h.count (N.ofInt count), min := if N.lt value h.min then value else h.min,
          max := if N.lt h.max value then value else h.max } := by
  obtain ⟨hk, pl⟩ := place_of_search N h.cs value
  simp only [addMany]
  generalize search h.cs.length (at_ h.cs fun c => N.le value c.p) = k at *
  have eh : h.cs = h.cs.take k ++ h.cs.drop k := (List.take_append_drop k h.cs).symm
  by_cases hit : at_ h.cs (fun c => N.eq c.p value) k = true
  · rw [if_pos hit]
    obtain ⟨c, hck, he⟩ : ∃ c, h.cs[k]? = some c ∧ N.eq c.p value = true := by
      unfold at_ at hit
      split at hit
      · exact ⟨_, ‹_›, hit⟩
      · cases hit
    have hlt := (List.getElem?_eq_some_iff.mp hck).1
    have hd : h.cs.drop k = c :: h.cs.drop (k + 1) := by
      rw [List.drop_eq_getElem_cons hlt, (List.getElem?_eq_some_iff.mp hck).2]
    refine ⟨_, Step.hit _ _ c (by rw [← hd]; exact eh) (by rw [← hd]; exact pl) he, ?_⟩
    congr 2
    rw [List.modify_eq_take_drop, hd]
    rfl
  · rw [if_neg hit]
    have ne : ∀ c, (h.cs.drop k).head? = some c → N.eq c.p value = false := by
      intro c hc'
      rw [List.head?_eq_getElem?, List.getElem?_drop, Nat.add_zero] at hc'
      rw [at_eq h.cs _ _ c hc'] at hit
      simpa using hit
    have ei : h.cs.insertIdx k { p := value, m := N.ofInt count } = h.cs.take k ++ { p := value, m := N.ofInt count } :: h.cs.drop k := by
      exact insertIdx_eq _ k h.cs hk
    rw [ei]
    have hlen : (h.cs.take k ++ { p := value, m := N.ofInt count } :: h.cs.drop k).length = h.cs.length + 1 := by
      conv => rhs; rw [eh]
      simp; omega
    by_cases hr : h.cs.length + 1 < h.cap
    · rw [if_pos (by rw [hlen]; exact hr)]
      exact ⟨_, Step.room _ _ eh pl ne hr, rfl⟩
    · rw [if_neg (by rw [hlen]; exact hr)]
      generalize hcs : h.cs.take k ++ { p := value, m := N.ofInt count } :: h.cs.drop k = cs at *
      have hm : closest N 0 cs 0 N.maxFinite + 1 < cs.length := by
        rcases closest_range N 0 cs 0 N.maxFinite with h0 | h0 <;> omega
      obtain ⟨x, c, d, y, e, hx, hs⟩ := mergeAt_some N _ cs hm
      rw [hs]
      exact ⟨_, Step.full _ _ x y c d eh pl ne (by omega) (by rw [hcs]; exact e) (by rw [← e]; exact hx), rfl⟩

/-- **C30**: an insertion does not panic and keeps to the number of bins asked for -/
theorem addMany_size (h : Sketch α) (value : α) (count : Int) (hc : h.cs.length < h.cap) (h2 : 2 ≤ h.cap) :
    ∃ h', addMany N h value count = some h' ∧ h'.cap = h.cap ∧ h'.cs.length < h'.cap ∧ 1 ≤ h'.cs.length := by
  obtain ⟨cs', st, e⟩ := addMany_step N h value count hc h2
  refine ⟨_, e, rfl, ?_, ?_⟩
  · show cs'.length < h.cap
    cases st with
    | hit a b c e1 => rw [e1] at hc; simpa using hc
    | room a b e1 pl ne hl => rw [e1] at hl; simp at hl ⊢; omega
    | full a b x y c d e1 pl ne hl e' =>
      have := congrArg List.length e'
      rw [e1] at hc
      simp at this hc ⊢; omega
  · show 1 ≤ cs'.length
    cases st <;> simp <;> omega

/-- insertions one after another -/
def addAll (h : Sketch α) : List (α × Nat) → Option (Sketch α)
  | [] => some h
  | (v, c) :: vs => (addMany N h v c).bind fun h' => addAll h' vs

theorem addAll_some (h : Sketch α) (vs : List (α × Nat)) (hc : h.cs.length < h.cap) (h2 : 2 ≤ h.cap) :
    ∃ h', addAll N h vs = some h' ∧ h'.cap = h.cap ∧ h'.cs.length < h'.cap ∧ (vs ≠ [] → 1 ≤ h'.cs.length) := by
  induction vs generalizing h with
  | nil => exact ⟨h, rfl, rfl, hc, fun h => absurd rfl h⟩
  | cons p vs ih =>
    obtain ⟨h1, e1, c1, l1, p1⟩ := addMany_size N h p.1 p.2 hc h2
    obtain ⟨h', e, c, l, ne⟩ := ih h1 (by omega) (by omega)
    refine ⟨h', by simp [addAll, e1, e], by omega, l, fun _ => ?_⟩
    by_cases hv : vs = []
    · subst hv
      simp only [addAll, Option.some.injEq] at e
      subst e; exact p1
    · exact ne hv
end

/-! ### Arithmetic -/

/-- what is needed of the arithmetic: an order on the comparable values, and exact sums of whole numbers up to a bound -/
structure Laws {α : Type} (N : Num α) (Ok Fin : α → Prop) {κ : Type} [LinearOrder κ] (key : α → κ) (B : Nat) : Prop where
  ok : ∀ {x}, Fin x → Ok x
  lt : ∀ {x y}, Ok x → Ok y → (N.lt x y = true ↔ key x < key y)
  le : ∀ {x y}, Ok x → Ok y → (N.le x y = true ↔ key x ≤ key y)
  eq : ∀ {x y}, Ok x → Ok y → (N.eq x y = true ↔ key x = key y)
  top : Fin N.maxFinite ∧ ∀ {x}, Fin x → key x ≤ key N.maxFinite
  bot : Fin (N.neg N.maxFinite) ∧ ∀ {x}, Fin x → key (N.neg N.maxFinite) ≤ key x
  add : ∀ {a b : Nat}, a + b ≤ B → N.add (N.ofInt a) (N.ofInt b) = N.ofInt (a + b : Nat)
  hit : ∀ {a b : Nat}, 1 ≤ a → 1 ≤ b → a + b ≤ B → N.add (N.ofInt a) (N.mul (N.sign (N.ofInt a)) (N.ofInt b)) = N.ofInt (a + b : Nat)
  hitNeg : ∀ {a b : Nat}, 1 ≤ a → 1 ≤ b → a + b ≤ B →
    N.add (N.neg (N.ofInt a)) (N.mul (N.sign (N.neg (N.ofInt a))) (N.ofInt b)) = N.neg (N.ofInt (a + b : Nat))
  abs : ∀ {a : Nat}, a ≤ B → N.abs (N.ofInt a) = N.ofInt a
  absNeg : ∀ {a : Nat}, a ≤ B → N.abs (N.neg (N.ofInt a)) = N.ofInt a
  toInt : ∀ {a : Nat}, a ≤ B → N.toInt (N.ofInt a) = a
  pos : ∀ {a : Nat}, a ≤ B → (N.lt (N.ofInt 0) (N.ofInt a) = true ↔ 0 < a)
  notPos : ∀ {a : Nat}, 1 ≤ a → a ≤ B → N.lt (N.ofInt 0) (N.neg (N.ofInt a)) = false

open Ieee in
theorem mul_ofInt {a b : Int} (ha : a.natAbs ≤ 2 ^ 53) (hb : b.natAbs ≤ 2 ^ 53) (hc : (a * b).natAbs ≤ 2 ^ 53) (h0 : a * b ≠ 0) :
    mul (ofInt a) (ofInt b) = ofInt (a * b) := by
  have fa := finite_ofInt ha
  have fb := finite_ofInt hb
  unfold mul
  simp only [fa.notNaN, fb.notNaN, fa.notInf, fb.notInf, Bool.or_self, Bool.false_eq_true, if_false]
  rw [isNeg_ofInt ha, isNeg_ofInt hb, mag_ofInt ha, mag_ofInt hb, (rnd_nat _ ha).2, (rnd_nat _ hb).2]
  have e1 : a.natAbs * unit * (b.natAbs * unit) = magVal (rnd ((a * b).natAbs * unit) 1) * unit := by
    rw [(rnd_nat _ hc).2, Int.natAbs_mul]
    rw [Nat.mul_assoc, Nat.mul_assoc, Nat.mul_assoc, Nat.mul_left_comm unit]
  rw [e1, rnd_exact _ _ unit_pos (Nat.le_of_lt (rnd_nat _ hc).1)]
  have hs : (decide (a < 0) != decide (b < 0)) = decide (a * b < 0) → mk (decide (a < 0) != decide (b < 0)) (rnd ((a * b).natAbs * unit) 1) = ofInt (a * b) := by
    intro e
    rw [e]
    unfold ofInt
    rfl
  apply hs
  clear hs e1
  rcases Int.lt_trichotomy a 0 with h | h | h
  · rcases Int.lt_trichotomy b 0 with h' | h' | h'
    · have := Int.mul_pos_of_neg_of_neg h h'
      simp [h, h']; omega
    · subst h'; simp at h0
    · have := Int.mul_neg_of_neg_of_pos h h'
      simp [h, this]; omega
  · subst h; simp at h0
  · rcases Int.lt_trichotomy b 0 with h' | h' | h'
    · have := Int.mul_neg_of_pos_of_neg h h'
      simp [h', this]; omega
    · subst h'; simp at h0
    · have := Int.mul_pos h h'
      have h1 : ¬ a < 0 := by omega
      have h2 : ¬ b < 0 := by omega
      simp [h1, h2]; omega

open Ieee in
theorem copysign_ofInt {a : Int} (ha : a.natAbs ≤ 2 ^ 53) (h : a ≠ 0) : copysign1 (ofInt a) = ofInt a.sign := by
  unfold copysign1
  rw [isNeg_ofInt ha]
  rcases Int.lt_trichotomy a 0 with h' | h' | h'
  · rw [Int.sign_eq_neg_one_of_neg h']
    simp only [h', decide_true]
    decide +kernel
  · exact absurd h' h
  · rw [Int.sign_eq_one_of_pos h']
    have : ¬ a < 0 := by omega
    simp only [this, decide_false]
    decide +kernel

open Ieee in
theorem eq_val {x y : UInt64} (hx : f64NaN x = false) (hy : f64NaN y = false) : f64Eq x y = true ↔ val x = val y := by
  have h1 := key_val x y
  have h2 := key_val y x
  unfold f64Eq
  simp only [hx, hy, Bool.not_false, Bool.true_and, decide_eq_true_eq]
  constructor <;> intro h <;> omega

open Ieee in
theorem val_le_top {x : UInt64} (h : Ieee.Finite x) : val x ≤ val maxFinite ∧ val (neg maxFinite) ≤ val x := by
  have hm : f64Mag maxFinite = infKey - 1 := by decide +kernel
  have hn : isNeg maxFinite = false := by decide +kernel
  have e1 : val maxFinite = magVal (infKey - 1) := by
    unfold val; rw [hn, hm]; rfl
  have e2 : val (neg maxFinite) = -(magVal (infKey - 1) : Int) := by
    unfold neg
    rw [val_mk _ (mag_lt _), hn, hm]; rfl
  have hl : magVal (f64Mag x) ≤ magVal (infKey - 1) := by
    rcases Nat.lt_or_ge (f64Mag x) (infKey - 1) with h' | h'
    · exact Nat.le_of_lt (magVal_lt h')
    · have : f64Mag x = infKey - 1 := by unfold Ieee.Finite at h; omega
      rw [this]
  rw [e1, e2]
  unfold val
  generalize magVal (infKey - 1) = M at *
  generalize magVal (f64Mag x) = m at *
  cases isNeg x <;> simp <;> omega

theorem ieee_add (x y : UInt64) : ieee.add x y = Ieee.add x y := rfl
theorem ieee_mul (x y : UInt64) : ieee.mul x y = Ieee.mul x y := rfl
theorem ieee_neg (x : UInt64) : ieee.neg x = Ieee.neg x := rfl
theorem ieee_abs (x : UInt64) : ieee.abs x = Ieee.abs x := rfl
theorem ieee_sign (x : UInt64) : ieee.sign x = Ieee.copysign1 x := rfl
theorem ieee_ofInt (i : Int) : ieee.ofInt i = Ieee.ofInt i := rfl
theorem ieee_lt (x y : UInt64) : ieee.lt x y = Ieee.lt x y := rfl
theorem ieee_toInt (x : UInt64) : ieee.toInt x = Ieee.toInt x := rfl

open Ieee in
theorem ieee_laws : Laws ieee (fun x => f64NaN x = false) Ieee.Finite val (2 ^ 53) where
  ok h := h.notNaN
  lt hx hy := by
    show Ieee.lt _ _ = true ↔ _
    rw [lt_val hx hy]
  le hx hy := by
    show Ieee.le _ _ = true ↔ _
    rw [le_val hx hy]
  eq hx hy := by
    show f64Eq _ _ = true ↔ _
    rw [eq_val hx hy]
  top := ⟨by unfold Ieee.Finite; decide +kernel, fun h => (val_le_top h).1⟩
  bot := ⟨by unfold Ieee.Finite; decide +kernel, fun h => (val_le_top h).2⟩
  add {a b} h := by
    simp only [ieee_add, ieee_mul, ieee_neg, ieee_sign, ieee_ofInt]
    rw [add_ofInt (by omega) (by omega) (by omega), Int.natCast_add]
  hit {a b} h1 h2 h := by
    simp only [ieee_add, ieee_mul, ieee_neg, ieee_sign, ieee_ofInt]
    rw [copysign_ofInt (by omega) (by omega), Int.sign_eq_one_of_pos (by omega), mul_ofInt (by decide) (by omega) (by omega) (by omega), Int.one_mul,
      add_ofInt (by omega) (by omega) (by omega), Int.natCast_add]
  hitNeg {a b} h1 h2 h := by
    simp only [ieee_add, ieee_mul, ieee_neg, ieee_sign, ieee_ofInt]
    rw [neg_ofInt (by omega) (by omega), neg_ofInt (by omega) (by omega),
      copysign_ofInt (by omega) (by omega), Int.sign_eq_neg_one_of_neg (by omega), mul_ofInt (by decide) (by omega) (by omega) (by omega),
      add_ofInt (by omega) (by omega) (by omega)]
    have e : -(a : Int) + -1 * (b : Int) = -((a + b : Nat) : Int) := by omega
    rw [e]
  abs {a} h := by
    simp only [ieee_abs, ieee_neg, ieee_ofInt]
    rw [abs_ofInt (by omega), Int.natAbs_natCast]
  absNeg {a} h := by
    simp only [ieee_abs, ieee_neg, ieee_ofInt]
    have : Ieee.abs (Ieee.neg (Ieee.ofInt a)) = Ieee.abs (Ieee.ofInt a) := by
      unfold Ieee.abs Ieee.neg
      rw [mag_mk _ (mag_lt _)]
    rw [this, abs_ofInt (by omega), Int.natAbs_natCast]
  toInt {a} h := by
    simp only [ieee_toInt, ieee_ofInt]
    unfold Ieee.toInt
    rw [val_ofInt (by omega)]
    exact Int.mul_tdiv_cancel _ (by have := unit_pos; omega)
  pos {a} h := by
    simp only [ieee_lt, ieee_ofInt]
    rw [lt_val (finite_ofInt (by decide)).notNaN (finite_ofInt (by omega)).notNaN, val_ofInt (by decide), val_ofInt (by omega), Int.zero_mul]
    have := unit_pos
    constructor
    · intro h
      rcases Nat.eq_zero_or_pos a with h0 | h0
      · rw [h0] at h; simp at h
      · exact h0
    · intro h
      exact Int.mul_pos (by omega) (by omega)
  notPos {a} h1 h := by
    rw [Bool.eq_false_iff]
    intro hh
    rw [ieee_lt, ieee_neg, ieee_ofInt, ieee_ofInt, neg_ofInt (by omega) (by omega)] at hh
    rw [lt_val (finite_ofInt (by decide)).notNaN (finite_ofInt (by omega)).notNaN, val_ofInt (by decide), val_ofInt (by omega), Int.zero_mul] at hh
    have h2 : -(a : Int) * (unit : Int) = -((a : Int) * unit) := Int.neg_mul _ _
    rw [h2] at hh
    have : 0 ≤ (a : Int) * (unit : Int) := Int.mul_nonneg (by omega) (by omega)
    generalize (a : Int) * (unit : Int) = z at *
    omega

/-- exact arithmetic on real numbers and any bound on values -/
noncomputable def exact (M : ℝ) : Num ℝ where
  add := (· + ·)
  sub := (· - ·)
  mul := (· * ·)
  div := (· / ·)
  neg := fun x => -x
  abs := fun x => if x < 0 then -x else x
  sqrt := Real.sqrt
  sign := fun x => if x < 0 then -1 else 1
  lt := fun x y => decide (x < y)
  le := fun x y => decide (x ≤ y)
  eq := fun x y => decide (x = y)
  ofInt := fun i => (i : ℝ)
  toInt := fun x => if x < 0 then -⌊-x⌋ else ⌊x⌋
  maxFinite := M

theorem exact_laws (M : ℝ) (hM : 0 ≤ M) (B : Nat) : Laws (exact M) (fun _ => True) (fun x => -M ≤ x ∧ x ≤ M) id B where
  ok _ := trivial
  lt _ _ := by simp [exact]
  le _ _ := by simp [exact]
  eq _ _ := by simp [exact]
  top := ⟨⟨by simp [exact]; linarith, by simp [exact]⟩, fun h => h.2⟩
  bot := ⟨⟨by simp [exact], by simp [exact]; linarith⟩, fun h => h.1⟩
  add _ := by simp [exact]
  hit {a b} h1 h2 h := by
    have : ¬ ((a : ℝ) < 0) := by have : (0 : ℝ) ≤ a := Nat.cast_nonneg a; linarith
    simp [exact, this]
  hitNeg {a b} h1 h2 h := by
    have h3 : (1 : ℝ) ≤ a := by exact_mod_cast h1
    have : (-(a : ℝ) < 0) := by linarith
    simp [exact, this]; exact add_comm _ _
  abs {a} _ := by
    have : ¬ ((a : ℝ) < 0) := by have : (0 : ℝ) ≤ a := Nat.cast_nonneg a; linarith
    simp [exact, this]
  absNeg {a} _ := by
    simp only [exact]
    split
    · simp
    · rename_i h
      have : (0 : ℝ) ≤ a := Nat.cast_nonneg a
      simp at *; linarith
  toInt {a} _ := by
    have : ¬ ((a : ℝ) < 0) := by have : (0 : ℝ) ≤ a := Nat.cast_nonneg a; linarith
    simp only [exact, Int.cast_natCast, this, if_false]
    exact Int.floor_natCast a
  pos {a} _ := by simp [exact]
  notPos {a} h1 _ := by
    simp [exact]

/-! ### Mass -/

section
variable {α : Type} {N : Num α} {Ok Fin : α → Prop} {κ : Type} [LinearOrder κ] {key : α → κ} {B : Nat}

/-- the number of values in a bin -/
def size (N : Num α) (c : Centroid α) : Int := N.toInt (N.abs c.m)

def total (vs : List (α × Nat)) : Nat := (vs.map (·.2)).sum

theorem total_append (a b : List (α × Nat)) : total (a ++ b) = total a + total b := by simp [total]

/-- a statement kept by every insertion holds after all of them -/
theorem addAll_ind (P : Sketch α → List (α × Nat) → Prop)
    (step : ∀ h done p h', h.cs.length < h.cap → 2 ≤ h.cap → P h done → addMany N h p.1 p.2 = some h' → P h' (done ++ [p]))
    (vs : List (α × Nat)) (h h' : Sketch α) (done : List (α × Nat)) (hc : h.cs.length < h.cap) (h2 : 2 ≤ h.cap) (h0 : P h done)
    (e : addAll N h vs = some h') : P h' (done ++ vs) := by
  induction vs generalizing h done with
  | nil =>
    simp only [addAll, Option.some.injEq] at e
    subst e; simpa using h0
  | cons p vs ih =>
    obtain ⟨h1, e1, c1, l1, _⟩ := addMany_size N h p.1 p.2 hc h2
    simp only [addAll, e1, Option.bind_some] at e
    have := ih h1 (done ++ [p]) (by omega) (by omega) (step h done p h1 hc h2 h0 e1) e
    simpa using this

theorem addAll_new_ind (P : Sketch α → List (α × Nat) → Prop)
    (step : ∀ h done p h', h.cs.length < h.cap → 2 ≤ h.cap → P h done → addMany N h p.1 p.2 = some h' → P h' (done ++ [p]))
    (n : Nat) (vs : List (α × Nat)) (h h' : Sketch α) (en : new N n = some h) (h0 : P h [])
    (e : addAll N h vs = some h') : P h' vs := by
  unfold new at en
  split at en
  · cases en
  · cases en
    have := addAll_ind P step vs _ h' [] (by simp) (by simp; omega) h0 e
    simpa using this

/-- the weight of a bin, positive for an exact bin and negative for a merged one -/
def IsW (N : Num α) (m : α) (w : Nat) : Prop := 1 ≤ w ∧ (m = N.ofInt w ∨ m = N.neg (N.ofInt w))

theorem IsW.abs (L : Laws N Ok Fin key B) {m : α} {w : Nat} (h : IsW N m w) (hb : w ≤ B) : N.abs m = N.ofInt w := by
  rcases h with ⟨_, h | h⟩
  · rw [h, L.abs hb]
  · rw [h, L.absNeg hb]

theorem size_eq (L : Laws N Ok Fin key B) {c : Centroid α} {w : Nat} (h : IsW N c.m w) (hb : w ≤ B) : size N c = w := by
  unfold size
  rw [h.abs L hb, L.toInt hb]

structure Mass (N : Num α) (B : Nat) (h : Sketch α) (T : Nat) : Prop where
  count : h.count = N.ofInt T
  each : ∀ c ∈ h.cs, ∃ w, IsW N c.m w ∧ w ≤ B
  sum : (h.cs.map (size N)).sum = T

theorem sizes_nonneg (L : Laws N Ok Fin key B) {cs : List (Centroid α)} (h : ∀ c ∈ cs, ∃ w, IsW N c.m w ∧ w ≤ B) : 0 ≤ (cs.map (size N)).sum := by
  induction cs with
  | nil => simp
  | cons c cs ih =>
    obtain ⟨w, hw, hb⟩ := h c (by simp)
    have := ih fun d hd => h d (by simp [hd])
    simp only [List.map_cons, List.sum_cons]
    rw [size_eq L hw hb]; omega

theorem mass_step (L : Laws N Ok Fin key B) {h h' : Sketch α} {T : Nat} {v : α} {n : Nat} (hc : h.cs.length < h.cap) (h2 : 2 ≤ h.cap)
    (hn : 1 ≤ n) (hB : T + n ≤ B) (hm : Mass N B h T) (e : addMany N h v n = some h') : Mass N B h' (T + n) := by
  obtain ⟨cs', st, e'⟩ := addMany_step N h v n hc h2
  rw [e'] at e
  cases e
  obtain ⟨m1, m2, m3⟩ := hm
  refine ⟨by simp only [m1]; exact L.add hB, ?_, ?_⟩
  · cases st with
    | hit a b c e1 pl he =>
      simp only [e1] at m2 m3
      intro d hd
      simp only [List.mem_append, List.mem_cons] at hd
      rcases hd with hd | hd | hd
      · exact m2 d (by simp [hd])
      · obtain ⟨w, hw, hb⟩ := m2 c (by simp)
        have h1 := sizes_nonneg L (cs := a) fun d hd => m2 d (by simp [hd])
        have h3 := sizes_nonneg L (cs := b) fun d hd => m2 d (by simp [hd])
        have hs := size_eq L hw hb
        simp only [List.map_append, List.map_cons, List.sum_append, List.sum_cons] at m3
        refine ⟨w + n, ?_, by omega⟩
        rw [hd]
        rcases hw with ⟨hw1, hw | hw⟩
        · exact ⟨by omega, Or.inl (by simp only [hw]; exact L.hit hw1 hn (by omega))⟩
        · exact ⟨by omega, Or.inr (by simp only [hw]; exact L.hitNeg hw1 hn (by omega))⟩
      · exact m2 d (by simp [hd])
    | room a b e1 pl ne hl =>
      simp only [e1] at m2
      intro d hd
      simp only [List.mem_append, List.mem_cons] at hd
      rcases hd with hd | hd | hd
      · exact m2 d (by simp [hd])
      · rw [hd]; exact ⟨n, ⟨hn, Or.inl rfl⟩, by omega⟩
      · exact m2 d (by simp [hd])
    | full a b x y c d e1 pl ne hl ex hx =>
      have m2' : ∀ c ∈ a ++ { p := v, m := N.ofInt n } :: b, ∃ w, IsW N c.m w ∧ w ≤ B := by
        simp only [e1] at m2
        intro d hd
        simp only [List.mem_append, List.mem_cons] at hd
        rcases hd with hd | hd | hd
        · exact m2 d (by simp [hd])
        · rw [hd]; exact ⟨n, ⟨hn, Or.inl rfl⟩, by omega⟩
        · exact m2 d (by simp [hd])
      have m3' : ((a ++ { p := v, m := N.ofInt n } :: b).map (size N)).sum = (T + n : Nat) := by
        simp only [e1] at m3
        simp only [List.map_append, List.map_cons, List.sum_append, List.sum_cons] at m3 ⊢
        rw [size_eq L (c := { p := v, m := N.ofInt n }) (w := n) ⟨hn, Or.inl rfl⟩ (by omega)]
        omega
      rw [ex] at m2' m3'
      intro e he
      simp only [List.mem_append, List.mem_cons] at he
      rcases he with he | he | he
      · exact m2' e (by simp [he])
      · obtain ⟨w1, hw1, hb1⟩ := m2' c (by simp)
        obtain ⟨w2, hw2, hb2⟩ := m2' d (by simp)
        have h1 := sizes_nonneg L (cs := x) fun d hd => m2' d (by simp [hd])
        have h3 := sizes_nonneg L (cs := y) fun d hd => m2' d (by simp [hd])
        simp only [List.map_append, List.map_cons, List.sum_append, List.sum_cons, size_eq L hw1 hb1, size_eq L hw2 hb2] at m3'
        refine ⟨w1 + w2, ?_, by omega⟩
        rw [he]
        refine ⟨by have := hw1.1; omega, Or.inr ?_⟩
        simp only [Centroid.merge, hw1.abs L hb1, hw2.abs L hb2]
        rw [L.add (by omega)]
      · exact m2' e (by simp [he])
  · cases st with
    | hit a b c e1 pl he =>
      simp only [e1] at m2 m3
      obtain ⟨w, hw, hb⟩ := m2 c (by simp)
      have h1 := sizes_nonneg L (cs := a) fun d hd => m2 d (by simp [hd])
      have h3 := sizes_nonneg L (cs := b) fun d hd => m2 d (by simp [hd])
      simp only [List.map_append, List.map_cons, List.sum_append, List.sum_cons, size_eq L hw hb] at m3 ⊢
      have hs : size N { c with m := N.add c.m (N.mul (N.sign c.m) (N.ofInt n)) } = (w + n : Nat) := by
        apply size_eq L _ (by omega)
        rcases hw with ⟨hw1, hw | hw⟩
        · exact ⟨by omega, Or.inl (by simp only [hw]; exact L.hit hw1 hn (by omega))⟩
        · exact ⟨by omega, Or.inr (by simp only [hw]; exact L.hitNeg hw1 hn (by omega))⟩
      rw [hs]; omega
    | room a b e1 pl ne hl =>
      simp only [e1] at m2 m3
      simp only [List.map_append, List.map_cons, List.sum_append, List.sum_cons] at m3 ⊢
      rw [size_eq L (c := { p := v, m := N.ofInt n }) (w := n) ⟨hn, Or.inl rfl⟩ (by omega)]
      omega
    | full a b x y c d e1 pl ne hl ex hx =>
      have m2' : ∀ c ∈ a ++ { p := v, m := N.ofInt n } :: b, ∃ w, IsW N c.m w ∧ w ≤ B := by
        simp only [e1] at m2
        intro d hd
        simp only [List.mem_append, List.mem_cons] at hd
        rcases hd with hd | hd | hd
        · exact m2 d (by simp [hd])
        · rw [hd]; exact ⟨n, ⟨hn, Or.inl rfl⟩, by omega⟩
        · exact m2 d (by simp [hd])
      have m3' : ((a ++ { p := v, m := N.ofInt n } :: b).map (size N)).sum = (T + n : Nat) := by
        simp only [e1] at m3
        simp only [List.map_append, List.map_cons, List.sum_append, List.sum_cons] at m3 ⊢
        rw [size_eq L (c := { p := v, m := N.ofInt n }) (w := n) ⟨hn, Or.inl rfl⟩ (by omega)]
        omega
      rw [ex] at m2' m3'
      obtain ⟨w1, hw1, hb1⟩ := m2' c (by simp)
      obtain ⟨w2, hw2, hb2⟩ := m2' d (by simp)
      have h1 := sizes_nonneg L (cs := x) fun d hd => m2' d (by simp [hd])
      have h3 := sizes_nonneg L (cs := y) fun d hd => m2' d (by simp [hd])
      simp only [List.map_append, List.map_cons, List.sum_append, List.sum_cons, size_eq L hw1 hb1, size_eq L hw2 hb2] at m3' ⊢
      have hs : size N (c.merge N d) = (w1 + w2 : Nat) := by
        apply size_eq L _ (by omega)
        refine ⟨by have := hw1.1; omega, Or.inr ?_⟩
        simp only [Centroid.merge, hw1.abs L hb1, hw2.abs L hb2]
        rw [L.add (by omega)]
      rw [hs]; omega

theorem mass_all (L : Laws N Ok Fin key B) (n : Nat) (vs : List (α × Nat)) (h0 h : Sketch α) (en : new N n = some h0) (e : addAll N h0 vs = some h)
    (hp : ∀ p ∈ vs, 1 ≤ p.2) (hB : total vs ≤ B) : Mass N B h (total vs) := by
  refine addAll_new_ind (fun h done => (∀ p ∈ done, 1 ≤ p.2) → total done ≤ B → Mass N B h (total done)) ?_ n vs h0 h en ?_ e hp hB
  · intro h done p h' hc h2 ih e hp hB
    have ht : total (done ++ [p]) = total done + p.2 := by rw [total_append]; simp [total]
    rw [ht] at hB ⊢
    exact mass_step L hc h2 (hp p (by simp)) hB (ih (fun q hq => hp q (by simp [hq])) (by omega)) e
  · intro _ _
    unfold new at en
    split at en
    · cases en
    · cases en
      exact ⟨rfl, by simp, by simp [total]⟩

/-! ### Extrema -/

theorem extrema (L : Laws N Ok Fin key B) (n : Nat) (vs : List (α × Nat)) (h0 h : Sketch α) (en : new N n = some h0) (e : addAll N h0 vs = some h)
    (hf : ∀ p ∈ vs, Fin p.1) :
    (Fin h.min ∧ Fin h.max) ∧ (∀ p ∈ vs, key h.min ≤ key p.1 ∧ key p.1 ≤ key h.max) ∧
      (vs ≠ [] → (∃ p ∈ vs, key h.min = key p.1) ∧ ∃ p ∈ vs, key h.max = key p.1) := by
  have hmain := addAll_new_ind (N := N) (fun h done => (∀ p ∈ done, Fin p.1) →
      (Fin h.min ∧ Fin h.max) ∧ (∀ p ∈ done, key h.min ≤ key p.1 ∧ key p.1 ≤ key h.max) ∧
      (h.min = N.maxFinite ∨ ∃ p ∈ done, key h.min = key p.1) ∧ (h.max = N.neg N.maxFinite ∨ ∃ p ∈ done, key h.max = key p.1)) ?_ n vs h0 h en ?_ e hf
  · obtain ⟨hfin, hb, h1, h2⟩ := hmain
    refine ⟨hfin, hb, fun hv => ?_⟩
    obtain ⟨p, hp⟩ := List.exists_mem_of_ne_nil vs hv
    constructor
    · rcases h1 with h1 | h1
      · refine ⟨p, hp, le_antisymm (hb p hp).1 ?_⟩
        rw [h1]; exact L.top.2 (hf p hp)
      · exact h1
    · rcases h2 with h2 | h2
      · refine ⟨p, hp, le_antisymm ?_ (hb p hp).2⟩
        rw [h2]; exact L.bot.2 (hf p hp)
      · exact h2
  · intro h done p h' hc h2 ih e hf
    obtain ⟨cs', st, e'⟩ := addMany_step N h p.1 p.2 hc h2
    rw [e'] at e
    cases e
    obtain ⟨⟨f1, f2⟩, hb, o1, o2⟩ := ih fun q hq => hf q (by simp [hq])
    have hp := hf p (by simp)
    simp only
    refine ⟨⟨by split <;> assumption, by split <;> assumption⟩, ?_, ?_, ?_⟩
    · intro q hq
      simp only [List.mem_append, List.mem_singleton] at hq
      constructor
      · split
        · rename_i hlt
          rw [L.lt (L.ok hp) (L.ok f1)] at hlt
          rcases hq with hq | hq
          · have := (hb q hq).1; order
          · rw [hq]
        · rename_i hlt
          rw [L.lt (L.ok hp) (L.ok f1)] at hlt
          rcases hq with hq | hq
          · exact (hb q hq).1
          · rw [hq]; order
      · split
        · rename_i hlt
          rw [L.lt (L.ok f2) (L.ok hp)] at hlt
          rcases hq with hq | hq
          · have := (hb q hq).2; order
          · rw [hq]
        · rename_i hlt
          rw [L.lt (L.ok f2) (L.ok hp)] at hlt
          rcases hq with hq | hq
          · exact (hb q hq).2
          · rw [hq]; order
    · split
      · exact Or.inr ⟨p, by simp, rfl⟩
      · rcases o1 with o1 | ⟨q, hq, o1⟩
        · exact Or.inl o1
        · exact Or.inr ⟨q, by simp [hq], o1⟩
    · split
      · exact Or.inr ⟨p, by simp, rfl⟩
      · rcases o2 with o2 | ⟨q, hq, o2⟩
        · exact Or.inl o2
        · exact Or.inr ⟨q, by simp [hq], o2⟩
  · intro _
    unfold new at en
    split at en
    · cases en
    · cases en
      exact ⟨⟨L.top.1, L.bot.1⟩, by simp, Or.inl rfl, Or.inl rfl⟩
end

/-! ### Before any merging -/

section
variable {α : Type} {N : Num α} {Ok Fin : α → Prop} {κ : Type} [LinearOrder κ] {key : α → κ} {B : Nat}

/-- how often a value was added -/
def mult {κ : Type} [LinearOrder κ] (key : α → κ) (vs : List (α × Nat)) (k : κ) : Nat := total (vs.filter fun p => key p.1 = k)

def Sorted {κ : Type} [LinearOrder κ] (key : α → κ) (cs : List (Centroid α)) : Prop := cs.Pairwise fun c d => key c.p < key d.p

theorem Place.lt (L : Laws N Ok Fin key B) {v : α} {a b : List (Centroid α)} (hv : Ok v) (ho : ∀ c ∈ a ++ b, Ok c.p) (hs : Sorted key (a ++ b))
    (pl : Place N v a b) : (∀ c ∈ a, key c.p < key v) ∧ ∀ c ∈ b, key v ≤ key c.p := by
  obtain ⟨h1, h2, h3⟩ := List.pairwise_append.mp hs
  constructor
  · intro c hc
    have ⟨d, hd⟩ : ∃ d, a.getLast? = some d := by
      cases a with
      | nil => cases hc
      | cons x xs => exact ⟨_, List.getLast?_eq_some_getLast (by simp)⟩
    have hl := pl.before d hd
    obtain ⟨a', ha⟩ := List.getLast?_eq_some_iff.mp hd
    have hdv : key d.p < key v := by
      rw [Bool.eq_false_iff, Ne, L.le hv (ho d (by simp [ha]))] at hl
      exact not_le.mp hl
    rw [ha] at hc h1
    rcases List.mem_append.mp hc with hc | hc
    · have := (List.pairwise_append.mp h1).2.2 c hc d (by simp)
      order
    · simp at hc; rw [hc]; exact hdv
  · intro c hc
    cases b with
    | nil => cases hc
    | cons d b =>
      have hl := pl.after d rfl
      rw [L.le hv (ho d (by simp))] at hl
      rcases List.mem_cons.mp hc with hc | hc
      · rw [hc]; exact hl
      · have := (List.pairwise_cons.mp h2).1 c hc
        order

structure Exact (N : Num α) (Fin : α → Prop) {κ : Type} [LinearOrder κ] (key : α → κ) (h : Sketch α) (vs : List (α × Nat)) : Prop where
  sorted : Sorted key h.cs
  each : ∀ c ∈ h.cs, Fin c.p ∧ 1 ≤ mult key vs (key c.p) ∧ c.m = N.ofInt (mult key vs (key c.p)) ∧ ∃ p ∈ vs, p.1 = c.p
  all : ∀ p ∈ vs, ∃ c ∈ h.cs, key c.p = key p.1

theorem mult_append (vs : List (α × Nat)) (p : α × Nat) (k : κ) : mult key (vs ++ [p]) k = mult key vs k + if key p.1 = k then p.2 else 0 := by
  unfold mult
  rw [List.filter_append, total_append]
  by_cases h : key p.1 = k <;> simp [total, h]

theorem mult_zero {vs : List (α × Nat)} {k : κ} (h : ∀ p ∈ vs, key p.1 ≠ k) : mult key vs k = 0 := by
  unfold mult
  rw [List.filter_eq_nil_iff.mpr (by simpa using h)]
  rfl

theorem mult_le (vs : List (α × Nat)) (k : κ) : mult key vs k ≤ total vs := by
  unfold mult total
  induction vs with
  | nil => simp
  | cons p vs ih =>
    rw [List.filter_cons]
    split <;> simp only [List.map_cons, List.sum_cons] <;> omega

/-- distinct entries of a list that lie in another are not more -/
theorem length_le_of_subset {β : Type} {a b : List β} (hn : a.Nodup) (h : ∀ x ∈ a, x ∈ b) : a.length ≤ b.length := by
  induction a generalizing b with
  | nil => simp
  | cons x a ih =>
    obtain ⟨b1, b2, hb⟩ := List.append_of_mem (h x (by simp))
    rw [List.nodup_cons] at hn
    have := ih (b := b1 ++ b2) hn.2 fun y hy => by
      have hy' := h y (by simp [hy])
      rw [hb] at hy'
      simp only [List.mem_append, List.mem_cons] at hy' ⊢
      rcases hy' with h' | h' | h'
      · exact Or.inl h'
      · rw [h'] at hy; exact absurd hy hn.1
      · exact Or.inr h'
    rw [hb]
    simp at this ⊢; omega

theorem sorted_nodup {cs : List (Centroid α)} (h : Sorted key cs) : (cs.map fun c => key c.p).Nodup := by
  unfold List.Nodup
  rw [List.pairwise_map]
  exact h.imp fun hlt => ne_of_lt hlt

theorem exact_step (L : Laws N Ok Fin key B) {h h' : Sketch α} {vs : List (α × Nat)} {p : α × Nat} (hc : h.cs.length < h.cap) (h2 : 2 ≤ h.cap)
    (hp : 1 ≤ p.2) (hf : Fin p.1) (hB : total (vs ++ [p]) ≤ B) (ks : List κ) (hks : ks.length < h.cap) (hk : ∀ q ∈ vs ++ [p], key q.1 ∈ ks)
    (hx : Exact N Fin key h vs) (e : addMany N h p.1 p.2 = some h') : Exact N Fin key h' (vs ++ [p]) := by
  obtain ⟨cs', st, e'⟩ := addMany_step N h p.1 p.2 hc h2
  rw [e'] at e
  cases e
  obtain ⟨x1, x2, x3⟩ := hx
  have hins : ∀ a b, h.cs = a ++ b → Place N p.1 a b → (∀ c, b.head? = some c → N.eq c.p p.1 = false) →
      (∀ c ∈ h.cs, key c.p ≠ key p.1) ∧ Sorted key (a ++ { p := p.1, m := N.ofInt p.2 } :: b) := by
    intro a b e1 pl ne
    rw [e1] at x1 x2 ⊢
    obtain ⟨la, lb⟩ := pl.lt L (L.ok hf) (fun c hc => L.ok (x2 c hc).1) x1
    obtain ⟨s1, s2, s3⟩ := List.pairwise_append.mp x1
    have lb' : ∀ c ∈ b, key p.1 < key c.p := by
      intro c hc
      cases b with
      | nil => cases hc
      | cons d b =>
        have hd : key p.1 < key d.p := by
          apply lt_of_le_of_ne (lb d (by simp))
          intro hh
          have := ne d rfl
          rw [Bool.eq_false_iff, Ne, L.eq (L.ok (x2 d (by simp)).1) (L.ok hf)] at this
          exact this hh.symm
        rcases List.mem_cons.mp hc with hc | hc
        · rw [hc]; exact hd
        · have := (List.pairwise_cons.mp s2).1 c hc
          order
    constructor
    · intro c hc
      rcases List.mem_append.mp hc with hc | hc
      · exact ne_of_lt (la c hc)
      · exact ne_of_gt (lb' c hc)
    · refine List.pairwise_append.mpr ⟨s1, List.pairwise_cons.mpr ⟨lb', s2⟩, ?_⟩
      intro c hc d hd
      rcases List.mem_cons.mp hd with hd | hd
      · rw [hd]; exact la c hc
      · exact s3 c hc d hd
  cases st with
  | hit a b c e1 pl he =>
    simp only [e1] at x1 x2 x3
    have hcp : key c.p = key p.1 := (L.eq (L.ok (x2 c (by simp)).1) (L.ok hf)).mp he
    have hother : ∀ d, (d ∈ a ∨ d ∈ b) → key p.1 ≠ key d.p := by
      intro d hd
      rw [← hcp]
      obtain ⟨s1, s2, s3⟩ := List.pairwise_append.mp x1
      rcases hd with hd | hd
      · exact ne_of_gt (s3 d hd c (by simp))
      · exact ne_of_lt ((List.pairwise_cons.mp s2).1 d hd)
    have hold : ∀ d, d ∈ a ++ c :: b → (d ∈ a ∨ d ∈ b) → Fin d.p ∧ 1 ≤ mult key (vs ++ [p]) (key d.p) ∧ d.m = N.ofInt (mult key (vs ++ [p]) (key d.p)) ∧ ∃ q ∈ vs ++ [p], q.1 = d.p := by
      intro d hd hd'
      obtain ⟨f, y1, y2, q, hq, y3⟩ := x2 d hd
      rw [mult_append, if_neg (hother d hd')]
      exact ⟨f, by omega, y2, q, by simp [hq], y3⟩
    refine ⟨?_, ?_, ?_⟩
    · unfold Sorted at x1 ⊢
      simp only [List.pairwise_append, List.pairwise_cons, List.mem_cons, forall_eq_or_imp] at x1 ⊢
      exact x1
    · intro d hd
      simp only [List.mem_append, List.mem_cons] at hd
      rcases hd with hd | hd | hd
      · exact hold d (by simp [hd]) (Or.inl hd)
      · rw [hd]
        obtain ⟨f, y1, y2, q, hq, y3⟩ := x2 c (by simp)
        rw [mult_append, if_pos hcp.symm]
        refine ⟨f, by omega, ?_, q, by simp [hq], y3⟩
        simp only [y2]
        have := mult_le (key := key) vs (key c.p)
        have ht : total (vs ++ [p]) = total vs + p.2 := by rw [total_append]; simp [total]
        exact L.hit y1 hp (by omega)
      · exact hold d (by simp [hd]) (Or.inr hd)
    · intro q hq
      simp only [List.mem_append, List.mem_singleton] at hq
      rcases hq with hq | hq
      · obtain ⟨d, hd, hdk⟩ := x3 q hq
        simp only [List.mem_append, List.mem_cons] at hd
        rcases hd with hd | hd | hd
        · exact ⟨d, by simp [hd], hdk⟩
        · exact ⟨{ c with m := N.add c.m (N.mul (N.sign c.m) (N.ofInt p.2)) }, by simp, by rw [← hdk, hd]⟩
        · exact ⟨d, by simp [hd], hdk⟩
      · exact ⟨{ c with m := N.add c.m (N.mul (N.sign c.m) (N.ofInt p.2)) }, by simp, by rw [hq, ← hcp]⟩
  | room a b e1 pl ne hl =>
    obtain ⟨hne, hs⟩ := hins a b e1 pl ne
    have hz : mult key vs (key p.1) = 0 := by
      apply mult_zero
      intro q hq hqk
      obtain ⟨d, hd, hdk⟩ := x3 q hq
      exact hne d hd (by rw [hdk, hqk])
    refine ⟨hs, ?_, ?_⟩
    · intro d hd
      simp only [List.mem_append, List.mem_cons] at hd
      have hold : d ∈ h.cs → Fin d.p ∧ 1 ≤ mult key (vs ++ [p]) (key d.p) ∧ d.m = N.ofInt (mult key (vs ++ [p]) (key d.p)) ∧ ∃ q ∈ vs ++ [p], q.1 = d.p := by
        intro hd
        obtain ⟨f, y1, y2, q, hq, y3⟩ := x2 d hd
        rw [mult_append, if_neg (Ne.symm (hne d hd))]
        exact ⟨f, by omega, y2, q, by simp [hq], y3⟩
      rcases hd with hd | hd | hd
      · exact hold (by simp [e1, hd])
      · rw [hd]
        simp only
        rw [mult_append, if_pos rfl, hz, Nat.zero_add]
        exact ⟨hf, hp, rfl, p, by simp, rfl⟩
      · exact hold (by simp [e1, hd])
    · intro q hq
      simp only [List.mem_append, List.mem_singleton] at hq
      rcases hq with hq | hq
      · obtain ⟨d, hd, hdk⟩ := x3 q hq
        rw [e1] at hd
        simp only [List.mem_append] at hd
        rcases hd with hd | hd
        · exact ⟨d, by simp [hd], hdk⟩
        · exact ⟨d, by simp [hd], hdk⟩
      · exact ⟨{ p := p.1, m := N.ofInt p.2 }, by simp, by rw [hq]⟩
  | full a b x y c d e1 pl ne hl =>
    exfalso
    obtain ⟨hne, hs⟩ := hins a b e1 pl ne
    have := length_le_of_subset (sorted_nodup hs) (b := ks) ?_
    · rw [e1] at hl
      simp at this hl; omega
    · intro k hk'
      obtain ⟨d, hd, rfl⟩ := List.mem_map.mp hk'
      simp only [List.mem_append, List.mem_cons] at hd
      have hold : d ∈ h.cs → key d.p ∈ ks := by
        intro hd
        obtain ⟨_, _, _, q, hq, y3⟩ := x2 d hd
        rw [← y3]; exact hk q (by simp [hq])
      rcases hd with hd | hd | hd
      · exact hold (by simp [e1, hd])
      · rw [hd]; exact hk p (by simp)
      · exact hold (by simp [e1, hd])

theorem exact_all (L : Laws N Ok Fin key B) (n : Nat) (vs : List (α × Nat)) (h0 h : Sketch α) (en : new N n = some h0) (e : addAll N h0 vs = some h)
    (hp : ∀ p ∈ vs, 1 ≤ p.2) (hf : ∀ p ∈ vs, Fin p.1) (hB : total vs ≤ B) (ks : List κ) (hks : ks.length ≤ n) (hk : ∀ p ∈ vs, key p.1 ∈ ks) :
    Exact N Fin key h vs := by
  have hmain := addAll_new_ind (N := N) (fun h done => h.cap = n + 1 ∧ ((∀ p ∈ done, 1 ≤ p.2) → (∀ p ∈ done, Fin p.1) → total done ≤ B → (∀ p ∈ done, key p.1 ∈ ks) → Exact N Fin key h done))
    ?_ n vs h0 h en ?_ e
  · exact hmain.2 hp hf hB hk
  · intro h done p h' hc h2 ih e
    obtain ⟨h1, e1, c1, _⟩ := addMany_size N h p.1 p.2 hc h2
    rw [e] at e1
    cases e1
    refine ⟨by rw [c1]; exact ih.1, fun hp hf hB hk => ?_⟩
    have ht : total (done ++ [p]) = total done + p.2 := by rw [total_append]; simp [total]
    exact exact_step L hc h2 (hp p (by simp)) (hf p (by simp)) hB ks (by rw [ih.1]; omega) hk
      (ih.2 (fun q hq => hp q (by simp [hq])) (fun q hq => hf q (by simp [hq])) (by omega) (fun q hq => hk q (by simp [hq]))) e
  · unfold new at en
    split at en
    · cases en
    · cases en
      exact ⟨rfl, fun _ _ _ _ => ⟨List.Pairwise.nil, by simp, by simp⟩⟩

theorem sum_ite (K : List κ) (hn : K.Nodup) (k : κ) (n : Nat) : (K.map fun x => if k = x then n else 0).sum = if k ∈ K then n else 0 := by
  induction K with
  | nil => simp
  | cons x K ih =>
    rw [List.nodup_cons] at hn
    simp only [List.map_cons, List.sum_cons, ih hn.2, List.mem_cons]
    by_cases h : k = x
    · subst h
      simp [hn.1]
    · simp [h]

/-- the numbers of distinct values add up to that of all of them -/
theorem sum_mult (K : List κ) (hn : K.Nodup) (vs : List (α × Nat)) : (K.map (mult key vs)).sum = total (vs.filter fun p => key p.1 ∈ K) := by
  induction vs with
  | nil =>
    have : K.map (mult key ([] : List (α × Nat))) = K.map fun _ => 0 := rfl
    rw [this]
    simp [total]
  | cons p vs ih =>
    have hm : ∀ k, mult key (p :: vs) k = (if key p.1 = k then p.2 else 0) + mult key vs k := by
      intro k
      unfold mult
      rw [List.filter_cons]
      by_cases h : key p.1 = k <;> simp [h, total]
    have hs : (K.map (mult key (p :: vs))).sum = (K.map fun x => if key p.1 = x then p.2 else 0).sum + (K.map (mult key vs)).sum := by
      clear ih hn
      induction K with
      | nil => rfl
      | cons k K ihK =>
        simp only [List.map_cons, List.sum_cons, ihK, hm]
        omega
    rw [hs, ih, sum_ite K hn, List.filter_cons]
    by_cases h : key p.1 ∈ K <;> simp [h, total]

theorem foldl_abs (L : Laws N Ok Fin key B) (w : Centroid α → Nat) (cs : List (Centroid α)) (s : Nat) (hm : ∀ c ∈ cs, N.abs c.m = N.ofInt (w c)) (hB : s + (cs.map w).sum ≤ B) :
    cs.foldl (fun s c => N.add s (N.abs c.m)) (N.ofInt s) = N.ofInt (s + (cs.map w).sum : Nat) := by
  induction cs generalizing s with
  | nil => simp
  | cons c cs ih =>
    simp only [List.map_cons, List.sum_cons] at hB ⊢
    rw [List.foldl_cons, hm c (by simp), L.add (by omega), ih (s + w c) (fun d hd => hm d (by simp [hd])) (by omega), Nat.add_assoc]

/-- the split of sorted bins at a value -/
theorem split_at (L : Laws N Ok Fin key B) (cs : List (Centroid α)) (hs : Sorted key cs) (ho : ∀ c ∈ cs, Ok c.p) (p : α) (hp : Ok p) :
    ∃ a b, cs = a ++ b ∧ search cs.length (at_ cs fun c => N.lt p c.p) = a.length ∧ (∀ c ∈ a, key c.p ≤ key p) ∧ ∀ c ∈ b, key p < key c.p := by
  have hf : ∀ (i : Nat) c, cs[i]? = some c → (at_ cs (fun c => N.lt p c.p) i = true ↔ key p < key c.p) := by
    intro i c hc
    rw [at_eq cs _ _ c hc, L.lt hp (ho c (List.mem_of_getElem? hc))]
  have hm := search_mono cs.length (at_ cs fun c => N.lt p c.p) (by
    intro i j hij hj hi
    obtain ⟨d, hd⟩ : ∃ d, cs[j]? = some d := ⟨cs[j], List.getElem?_eq_getElem hj⟩
    obtain ⟨c, hc⟩ : ∃ c, cs[i]? = some c := ⟨cs[i], List.getElem?_eq_getElem (by omega)⟩
    rw [hf i c hc] at hi
    rw [hf j d hd]
    rcases Nat.lt_or_eq_of_le hij with hlt | heq
    · have := List.pairwise_iff_getElem.mp hs i j (by omega) hj hlt
      rw [(List.getElem?_eq_some_iff.mp hc).2, (List.getElem?_eq_some_iff.mp hd).2] at this
      order
    · subst heq
      rw [hc] at hd
      cases hd; exact hi)
  have hk := (search_spec cs.length (at_ cs fun c => N.lt p c.p)).1
  generalize search cs.length (at_ cs fun c => N.lt p c.p) = k at *
  refine ⟨cs.take k, cs.drop k, (List.take_append_drop k cs).symm, by rw [List.length_take]; omega, ?_, ?_⟩
  · intro c hc
    obtain ⟨i, hi, rfl⟩ := List.mem_iff_getElem.mp hc
    rw [List.length_take] at hi
    rw [List.getElem_take]
    have := (hm i (by omega)).not.mpr (by omega)
    rw [hf i cs[i] (List.getElem?_eq_getElem (by omega))] at this
    exact not_lt.mp this
  · intro c hc
    obtain ⟨i, hi, rfl⟩ := List.mem_iff_getElem.mp hc
    rw [List.length_drop] at hi
    rw [List.getElem_drop]
    have := (hm (k + i) (by omega)).mpr (by omega)
    rwa [hf (k + i) cs[k + i] (List.getElem?_eq_getElem (by omega))] at this

theorem sum_exact (L : Laws N Ok Fin key B) (n : Nat) (vs : List (α × Nat)) (h0 h : Sketch α) (en : new N n = some h0) (e : addAll N h0 vs = some h)
    (hp : ∀ p ∈ vs, 1 ≤ p.2) (hf : ∀ p ∈ vs, Fin p.1) (hB : total vs ≤ B) (ks : List κ) (hks : ks.length ≤ n) (hk : ∀ p ∈ vs, key p.1 ∈ ks) (p : α) (hpo : Ok p) :
    sum N h p = some (N.ofInt (total (vs.filter fun q => key q.1 ≤ key p))) := by
  have hx := exact_all L n vs h0 h en e hp hf hB ks hks hk
  have hmass := mass_all L n vs h0 h en e hp hB
  obtain ⟨⟨f1, f2⟩, hb, hext⟩ := extrema L n vs h0 h en e hf
  unfold sum
  by_cases h1 : N.le h.max p = true
  · rw [if_pos h1, hmass.count]
    rw [L.le (L.ok f2) hpo] at h1
    rw [List.filter_eq_self.mpr]
    intro q hq
    have := (hb q hq).2
    simp; order
  · rw [if_neg h1]
    by_cases h2 : N.lt p h.min = true
    · rw [if_pos h2]
      rw [L.lt hpo (L.ok f1)] at h2
      rw [List.filter_eq_nil_iff.mpr]
      · rfl
      · intro q hq
        have := (hb q hq).1
        simp; order
    · rw [if_neg h2]
      rw [L.le (L.ok f2) hpo, not_le] at h1
      rw [L.lt hpo (L.ok f1), not_lt] at h2
      obtain ⟨a, b, ecs, hlen, ha, hb'⟩ := split_at L h.cs hx.sorted (fun c hc => L.ok (hx.each c hc).1) p hpo
      by_cases hv : vs = []
      · exfalso
        subst hv
        simp only [addAll, Option.some.injEq] at e
        subst e
        unfold new at en
        split at en
        · cases en
        · cases en
          have := L.top.2 L.bot.1
          simp only at h1 h2
          order
      · obtain ⟨⟨q1, hq1, e1⟩, q2, hq2, e2⟩ := hext hv
        have ane : a ≠ [] := by
          rintro rfl
          obtain ⟨c, hc, hck⟩ := hx.all q1 hq1
          rw [ecs] at hc
          have := hb' c (by simpa using hc)
          rw [hck, ← e1] at this; order
        have bne : b ≠ [] := by
          rintro rfl
          obtain ⟨c, hc, hck⟩ := hx.all q2 hq2
          rw [ecs] at hc
          have := ha c (by simpa using hc)
          rw [hck, ← e2] at this; order
        obtain ⟨a', ci, rfl⟩ : ∃ a' ci, a = a' ++ [ci] := ⟨a.dropLast, a.getLast ane, (List.dropLast_append_getLast ane).symm⟩
        obtain ⟨cj, b', rfl⟩ : ∃ cj b', b = cj :: b' := by
          cases b with
          | nil => exact absurd rfl bne
          | cons x xs => exact ⟨x, xs, rfl⟩
        have hci := hx.each ci (by rw [ecs]; simp)
        have hcj := hx.each cj (by rw [ecs]; simp)
        have hle : ∀ k, mult key vs k ≤ B := fun k => Nat.le_trans (mult_le vs k) hB
        have hsorted := hx.sorted
        rw [ecs] at hsorted
        have hcount : total (vs.filter fun q => key q.1 ≤ key p) = ((a' ++ [ci]).map fun c => mult key vs (key c.p)).sum := by
          have hn := sorted_nodup (List.pairwise_append.mp hsorted).1
          have := sum_mult (key := key) ((a' ++ [ci]).map fun c => key c.p) hn vs
          rw [List.map_map] at this
          have hcomp : (mult key vs ∘ fun c : Centroid α => key c.p) = fun c => mult key vs (key c.p) := rfl
          rw [hcomp] at this
          rw [this]
          congr 1
          apply List.filter_congr
          intro q hq
          rw [decide_eq_decide]
          constructor
          · intro hqp
            obtain ⟨c, hc, hck⟩ := hx.all q hq
            rw [ecs] at hc
            rw [List.mem_map]
            rcases List.mem_append.mp hc with hc | hc
            · exact ⟨c, hc, hck⟩
            · have := hb' c hc
              rw [hck] at this; order
          · intro hqk
            obtain ⟨c, hc, hck⟩ := List.mem_map.mp hqk
            rw [← hck]; exact ha c hc
        have hle2 : total (vs.filter fun q => key q.1 ≤ key p) ≤ B := by
          refine Nat.le_trans ?_ hB
          have := total_append (vs.filter fun q => key q.1 ≤ key p) []
          clear this
          unfold total
          clear * -
          induction vs with
          | nil => simp
          | cons p vs ih =>
            rw [List.filter_cons]
            split <;> simp only [List.map_cons, List.sum_cons] <;> omega
        rw [hlen]
        have hgc : getCentroids N h (a' ++ [ci]).length = some (ci, cj) := by
          unfold getCentroids
          rw [ecs]
          rw [if_neg (by simp), if_neg (by simp)]
          simp
        simp only [hgc]
        have htake : h.cs.take ((a' ++ [ci]).length - 1) = a' := by rw [ecs]; simp
        rw [htake]
        rw [List.map_append, List.sum_append] at hcount
        simp only [List.map_cons, List.map_nil, List.sum_cons, List.sum_nil, Nat.add_zero] at hcount
        have hfold := foldl_abs L (fun c => mult key vs (key c.p)) a' 0 (fun c hc => by rw [(hx.each c (by rw [ecs]; simp [hc])).2.2.1, L.abs (hle _)]) (by omega)
        have hpi : N.lt (N.ofInt 0) ci.m = true := by rw [hci.2.2.1]; exact (L.pos (hle _)).mpr hci.2.1
        have hpj : N.lt (N.ofInt 0) cj.m = true := by rw [hcj.2.2.1]; exact (L.pos (hle _)).mpr hcj.2.1
        simp only [Option.map_some, hpi, hpj, Bool.true_or, Bool.and_self, if_true]
        rw [Int.ofNat_zero] at hfold
        rw [hfold, hci.2.2.1, Nat.zero_add, L.add (by omega), hcount]
end

/-! ### The closest bins are merged -/

section
variable {α : Type} {N : Num α} {Ok Fin : α → Prop} {κ : Type} [LinearOrder κ] {key : α → κ} {B : Nat}

/-- two bins next to each other -/
def Adjacent (cs : List (Centroid α)) (c d : Centroid α) : Prop := ∃ x y, cs = x ++ c :: d :: y

theorem adjacent_cons {c d e f : Centroid α} {cs : List (Centroid α)} (h : Adjacent (c :: d :: cs) e f) : (e = c ∧ f = d) ∨ Adjacent (d :: cs) e f := by
  obtain ⟨x, y, h⟩ := h
  cases x with
  | nil => simp at h; exact Or.inl ⟨h.1.symm, h.2.1.symm⟩
  | cons z x => simp at h; exact Or.inr ⟨x, y, h.2⟩

theorem closest_spec (L : Laws N Ok Fin key B) (i : Nat) (cs : List (Centroid α)) (mi : Nat) (md : α) (hmd : Ok md)
    (hd : ∀ c d, Adjacent cs c d → Ok (N.sub d.p c.p)) :
    (closest N i cs mi md = mi ∧ ∀ c d, Adjacent cs c d → key md ≤ key (N.sub d.p c.p)) ∨
      ∃ x c d y, cs = x ++ c :: d :: y ∧ closest N i cs mi md = i + x.length ∧ key (N.sub d.p c.p) < key md ∧
        ∀ e f, Adjacent cs e f → key (N.sub d.p c.p) ≤ key (N.sub f.p e.p) := by
  induction cs generalizing i mi md with
  | nil =>
    left
    refine ⟨rfl, ?_⟩
    rintro c d ⟨x, y, h⟩
    simp at h
  | cons c cs ih =>
    cases cs with
    | nil =>
      left
      refine ⟨rfl, ?_⟩
      rintro e f ⟨x, y, h⟩
      have := congrArg List.length h
      simp at this
      omega
    | cons d cs =>
      have hd' : ∀ e f, Adjacent (d :: cs) e f → Ok (N.sub f.p e.p) := by
        rintro e f ⟨x, y, h⟩
        exact hd e f ⟨c :: x, y, by rw [h]; rfl⟩
      have h0 : Ok (N.sub d.p c.p) := hd c d ⟨[], cs, rfl⟩
      simp only [closest]
      by_cases hlt : N.lt (N.sub d.p c.p) md = true
      · rw [if_pos hlt]
        rw [L.lt h0 hmd] at hlt
        rcases ih (i + 1) i (N.sub d.p c.p) h0 hd' with ⟨e1, e2⟩ | ⟨x, c', d', y, e1, e2, e3, e4⟩
        · right
          refine ⟨[], c, d, cs, rfl, by rw [e1]; rfl, hlt, ?_⟩
          intro e f hef
          rcases adjacent_cons hef with ⟨rfl, rfl⟩ | hef
          · exact le_refl _
          · exact e2 e f hef
        · right
          refine ⟨c :: x, c', d', y, by rw [e1]; rfl, by rw [e2]; simp; omega, by order, ?_⟩
          intro e f hef
          rcases adjacent_cons hef with ⟨rfl, rfl⟩ | hef
          · exact le_of_lt e3
          · exact e4 e f hef
      · rw [if_neg hlt]
        rw [L.lt h0 hmd, not_lt] at hlt
        rcases ih (i + 1) mi md hmd hd' with ⟨e1, e2⟩ | ⟨x, c', d', y, e1, e2, e3, e4⟩
        · left
          refine ⟨e1, ?_⟩
          intro e f hef
          rcases adjacent_cons hef with ⟨rfl, rfl⟩ | hef
          · exact hlt
          · exact e2 e f hef
        · right
          refine ⟨c :: x, c', d', y, by rw [e1]; rfl, by rw [e2]; simp; omega, e3, ?_⟩
          intro e f hef
          rcases adjacent_cons hef with ⟨rfl, rfl⟩ | hef
          · order
          · exact e4 e f hef

theorem merged_closest_lt (L : Laws N Ok Fin key B) (x y : List (Centroid α)) (c d : Centroid α) (hx : x.length = closest N 0 (x ++ c :: d :: y) 0 N.maxFinite)
    (hd : ∀ e f, Adjacent (x ++ c :: d :: y) e f → Ok (N.sub f.p e.p)) :
    (x = [] ∧ ∀ e f, Adjacent (x ++ c :: d :: y) e f → key N.maxFinite ≤ key (N.sub f.p e.p)) ∨
      (key (N.sub d.p c.p) < key N.maxFinite ∧ ∀ e f, Adjacent (x ++ c :: d :: y) e f → key (N.sub d.p c.p) ≤ key (N.sub f.p e.p)) := by
  rcases closest_spec L 0 (x ++ c :: d :: y) 0 N.maxFinite (L.ok L.top.1) hd with ⟨e1, e2⟩ | ⟨x', c', d', y', e1, e2, e3, e4⟩
  · left
    rw [e1] at hx
    exact ⟨List.length_eq_zero_iff.mp hx, e2⟩
  · right
    rw [e2, Nat.zero_add] at hx
    obtain ⟨h1, h2⟩ := List.append_inj e1 hx
    simp at h2
    obtain ⟨rfl, rfl, rfl⟩ := h2
    exact ⟨e3, e4⟩

theorem merged_closest (L : Laws N Ok Fin key B) (x y : List (Centroid α)) (c d : Centroid α) (hx : x.length = closest N 0 (x ++ c :: d :: y) 0 N.maxFinite)
    (hd : ∀ e f, Adjacent (x ++ c :: d :: y) e f → Ok (N.sub f.p e.p)) :
    (x = [] ∧ ∀ e f, Adjacent (x ++ c :: d :: y) e f → key N.maxFinite ≤ key (N.sub f.p e.p)) ∨
      ∀ e f, Adjacent (x ++ c :: d :: y) e f → key (N.sub d.p c.p) ≤ key (N.sub f.p e.p) :=
  (merged_closest_lt L x y c d hx hd).imp id And.right
end

/-! ### Order and mean in exact arithmetic -/

section
variable {M : ℝ}

noncomputable def moment (M : ℝ) (cs : List (Centroid ℝ)) : ℝ := (cs.map fun c => c.p * (size (exact M) c : ℝ)).sum

structure Ordered (M : ℝ) (h : Sketch ℝ) (vs : List (ℝ × Nat)) : Prop where
  sorted : Sorted id h.cs
  within : ∀ c ∈ h.cs, h.min ≤ c.p ∧ c.p ≤ h.max
  moment : moment M h.cs = (vs.map fun p => p.1 * (p.2 : ℝ)).sum

theorem between {p q : ℝ} {a b : Nat} (hpq : p < q) (ha : 1 ≤ a) (hb : 1 ≤ b) :
    p < (p * (a : ℝ) + q * (b : ℝ)) / ((a + b : Nat) : ℝ) ∧ (p * (a : ℝ) + q * (b : ℝ)) / ((a + b : Nat) : ℝ) < q := by
  have h1 : (1 : ℝ) ≤ a := by exact_mod_cast ha
  have h2 : (1 : ℝ) ≤ b := by exact_mod_cast hb
  have h3 : ((a + b : Nat) : ℝ) = a + b := by push_cast; rfl
  rw [h3]
  constructor
  · rw [lt_div_iff₀ (by linarith)]
    nlinarith
  · rw [div_lt_iff₀ (by linarith)]
    nlinarith

theorem ordered_step {h h' : Sketch ℝ} {T : Nat} {vs : List (ℝ × Nat)} {p : ℝ × Nat} (hc : h.cs.length < h.cap) (h2 : 2 ≤ h.cap) (hn : 1 ≤ p.2)
    (hM : 0 ≤ M) (hm : Mass (exact M) (T + p.2) h T) (ho : Ordered M h vs) (e : addMany (exact M) h p.1 p.2 = some h') :
    Ordered M h' (vs ++ [p]) := by
  have L := exact_laws M hM (T + p.2)
  obtain ⟨cs', st, e'⟩ := addMany_step (exact M) h p.1 p.2 hc h2
  rw [e'] at e
  cases e
  obtain ⟨x1, x2, x3⟩ := ho
  obtain ⟨m1, m2, m3⟩ := hm
  have hmin : ∀ c ∈ h.cs, (if (exact M).lt p.1 h.min then p.1 else h.min) ≤ c.p ∧ c.p ≤ if (exact M).lt h.max p.1 then p.1 else h.max := by
    intro c hc
    have := x2 c hc
    simp only [exact, decide_eq_true_eq]
    constructor
    · split
      · linarith
      · exact this.1
    · split
      · linarith
      · exact this.2
  have hminp : (if (exact M).lt p.1 h.min then p.1 else h.min) ≤ p.1 ∧ p.1 ≤ if (exact M).lt h.max p.1 then p.1 else h.max := by
    simp only [exact, decide_eq_true_eq]
    constructor
    · split
      · exact le_refl _
      · linarith
    · split
      · exact le_refl _
      · linarith
  have hnew : size (exact M) { p := p.1, m := (exact M).ofInt p.2 } = p.2 := size_eq L ⟨hn, Or.inl rfl⟩ (by omega)
  have hins : ∀ a b, h.cs = a ++ b → Place (exact M) p.1 a b → (∀ c, b.head? = some c → (exact M).eq c.p p.1 = false) →
      Sorted id (a ++ { p := p.1, m := (exact M).ofInt p.2 } :: b) ∧
      moment M (a ++ { p := p.1, m := (exact M).ofInt p.2 } :: b) = ((vs ++ [p]).map fun p => p.1 * (p.2 : ℝ)).sum ∧
      (∀ c ∈ a ++ { p := p.1, m := (exact M).ofInt p.2 } :: b, (if (exact M).lt p.1 h.min then p.1 else h.min) ≤ c.p ∧ c.p ≤ if (exact M).lt h.max p.1 then p.1 else h.max) ∧
      (∀ c ∈ a ++ { p := p.1, m := (exact M).ofInt p.2 } :: b, ∃ w, IsW (exact M) c.m w ∧ w ≤ T + p.2) ∧
      ((a ++ { p := p.1, m := (exact M).ofInt p.2 } :: b).map (size (exact M))).sum = (T + p.2 : Nat) := by
    intro a b e1 pl ne
    rw [e1] at x1 x3 hmin m2 m3
    obtain ⟨la, lb⟩ := pl.lt L trivial (fun _ _ => trivial) x1
    obtain ⟨s1, s2, s3⟩ := List.pairwise_append.mp x1
    have lb' : ∀ c ∈ b, p.1 < c.p := by
      intro c hc
      cases b with
      | nil => cases hc
      | cons d b =>
        have hd : p.1 < d.p := by
          apply lt_of_le_of_ne (lb d (by simp))
          intro hh
          have := ne d rfl
          simp [exact] at this
          exact this hh.symm
        rcases List.mem_cons.mp hc with hc | hc
        · rw [hc]; exact hd
        · have := (List.pairwise_cons.mp s2).1 c hc
          simp only [id] at this
          linarith
    refine ⟨?_, ?_, ?_, ?_, ?_⟩
    · refine List.pairwise_append.mpr ⟨s1, List.pairwise_cons.mpr ⟨lb', s2⟩, ?_⟩
      intro c hc d hd
      rcases List.mem_cons.mp hd with hd | hd
      · rw [hd]; exact la c hc
      · exact s3 c hc d hd
    · unfold moment at x3 ⊢
      simp only [List.map_append, List.map_cons, List.sum_append, List.sum_cons, List.map_nil, List.sum_nil] at x3 ⊢
      rw [hnew, ← x3]
      push_cast
      ring
    · intro c hc
      simp only [List.mem_append, List.mem_cons] at hc
      rcases hc with hc | hc | hc
      · exact hmin c (by simp [hc])
      · rw [hc]; exact hminp
      · exact hmin c (by simp [hc])
    · intro c hc
      simp only [List.mem_append, List.mem_cons] at hc
      rcases hc with hc | hc | hc
      · exact m2 c (by simp [hc])
      · rw [hc]; exact ⟨p.2, ⟨hn, Or.inl rfl⟩, by omega⟩
      · exact m2 c (by simp [hc])
    · simp only [List.map_append, List.map_cons, List.sum_append, List.sum_cons] at m3 ⊢
      rw [hnew]; omega
  cases st with
  | hit a b c e1 pl he =>
    rw [e1] at x1 x3 hmin m2 m3
    have hcp : c.p = p.1 := by simpa [exact] using he
    refine ⟨?_, ?_, ?_⟩
    · unfold Sorted at x1 ⊢
      simp only [List.pairwise_append, List.pairwise_cons, List.mem_cons, forall_eq_or_imp] at x1 ⊢
      exact x1
    · intro d hd
      simp only [List.mem_append, List.mem_cons] at hd
      rcases hd with hd | hd | hd
      · exact hmin d (by simp [hd])
      · rw [hd]; exact hmin c (by simp)
      · exact hmin d (by simp [hd])
    · obtain ⟨w, hw, hb⟩ := m2 c (by simp)
      have h1 := sizes_nonneg L (cs := a) fun d hd => m2 d (by simp [hd])
      have h3 := sizes_nonneg L (cs := b) fun d hd => m2 d (by simp [hd])
      simp only [List.map_append, List.map_cons, List.sum_append, List.sum_cons, size_eq L hw hb] at m3
      have hs : size (exact M) { c with m := (exact M).add c.m ((exact M).mul ((exact M).sign c.m) ((exact M).ofInt p.2)) } = (w + p.2 : Nat) := by
        apply size_eq L _ (by omega)
        rcases hw with ⟨hw1, hw | hw⟩
        · exact ⟨by omega, Or.inl (by simp only [hw]; exact L.hit hw1 hn (by omega))⟩
        · exact ⟨by omega, Or.inr (by simp only [hw]; exact L.hitNeg hw1 hn (by omega))⟩
      unfold moment at x3 ⊢
      simp only [List.map_append, List.map_cons, List.sum_append, List.sum_cons, List.map_nil, List.sum_nil, size_eq L hw hb] at x3 ⊢
      rw [hs, ← x3, hcp]
      push_cast
      ring
  | room a b e1 pl ne hl =>
    obtain ⟨s1, s2, s3, _⟩ := hins a b e1 pl ne
    exact ⟨s1, s3, s2⟩
  | full a b x y c d e1 pl ne hl ex hx =>
    obtain ⟨s1, s2, s3, s4, s5⟩ := hins a b e1 pl ne
    rw [ex] at s1 s2 s3 s4 s5
    obtain ⟨w1, hw1, hb1⟩ := s4 c (by simp)
    obtain ⟨w2, hw2, hb2⟩ := s4 d (by simp)
    have n1 := sizes_nonneg L (cs := x) fun d hd => s4 d (by simp [hd])
    have n3 := sizes_nonneg L (cs := y) fun d hd => s4 d (by simp [hd])
    simp only [List.map_append, List.map_cons, List.sum_append, List.sum_cons, size_eq L hw1 hb1, size_eq L hw2 hb2] at s5
    have hw12 : w1 + w2 ≤ T + p.2 := by omega
    have hs : size (exact M) (c.merge (exact M) d) = (w1 + w2 : Nat) := by
      apply size_eq L _ hw12
      refine ⟨by have := hw1.1; omega, Or.inr ?_⟩
      simp only [Centroid.merge, hw1.abs L hb1, hw2.abs L hb2]
      rw [L.add hw12]
    have hp : (c.merge (exact M) d).p = (c.p * (w1 : ℝ) + d.p * (w2 : ℝ)) / ((w1 + w2 : Nat) : ℝ) := by
      simp only [Centroid.merge, hw1.abs L hb1, hw2.abs L hb2]
      rw [L.add hw12]
      simp [exact]
    simp only [Sorted, List.pairwise_append, List.pairwise_cons, List.mem_cons, forall_eq_or_imp, id] at s1
    obtain ⟨q1, ⟨⟨q2, q3⟩, q4, q5⟩, q6⟩ := s1
    obtain ⟨b1, b2⟩ := between q2 hw1.1 hw2.1
    rw [← hp] at b1 b2
    refine ⟨?_, ?_, ?_⟩
    · simp only [Sorted, List.pairwise_append, List.pairwise_cons, List.mem_cons, forall_eq_or_imp, id]
      refine ⟨q1, ⟨fun e he => ?_, q5⟩, fun e he => ⟨?_, fun f hf => (q6 e he).2.2 f hf⟩⟩
      · have := q4 e he; linarith
      · have := (q6 e he).1; linarith
    · intro e he
      simp only [List.mem_append, List.mem_cons] at he
      rcases he with he | he | he
      · exact s3 e (by simp [he])
      · rw [he]
        have h1 := s3 c (by simp)
        have h3 := s3 d (by simp)
        simp only at h1 h3 ⊢
        exact ⟨by linarith [h1.1], by linarith [h3.2]⟩
      · exact s3 e (by simp [he])
    · unfold moment at s2 ⊢
      simp only [List.map_append, List.map_cons, List.sum_append, List.sum_cons, List.map_nil, List.sum_nil, size_eq L hw1 hb1, size_eq L hw2 hb2] at s2 ⊢
      rw [hs, hp, ← s2]
      have hne : ((w1 + w2 : Nat) : ℝ) ≠ 0 := by
        have := hw1.1
        exact_mod_cast (by omega : w1 + w2 ≠ 0)
      push_cast at hne ⊢
      field_simp
      ring

theorem ordered_all (hM : 0 ≤ M) (n : Nat) (vs : List (ℝ × Nat)) (h0 h : Sketch ℝ) (en : new (exact M) n = some h0) (e : addAll (exact M) h0 vs = some h)
    (hp : ∀ p ∈ vs, 1 ≤ p.2) : Ordered M h vs := by
  refine (addAll_new_ind (N := exact M) (fun h done => (∀ p ∈ done, 1 ≤ p.2) → (∀ B, total done ≤ B → Mass (exact M) B h (total done)) ∧ Ordered M h done)
    ?_ n vs h0 h en ?_ e hp).2
  · intro h done p h' hc h2 ih e hp
    have hp' : ∀ q ∈ done, 1 ≤ q.2 := fun q hq => hp q (by simp [hq])
    have ht : total (done ++ [p]) = total done + p.2 := by rw [total_append]; simp [total]
    refine ⟨fun B hB => ?_, ?_⟩
    · rw [ht] at hB ⊢
      exact mass_step (exact_laws M hM B) hc h2 (hp p (by simp)) hB ((ih hp').1 B (by omega)) e
    · exact ordered_step hc h2 (hp p (by simp)) hM ((ih hp').1 _ (by omega)) (ih hp').2 e
  · intro _
    unfold new at en
    split at en
    · cases en
    · cases en
      exact ⟨fun B hB => ⟨rfl, by simp, by simp [total]⟩, List.Pairwise.nil, by simp, by simp [moment]⟩
end

end Verif.Sketch
