import Verif.Model.Stats
import Verif.Props.Sketch
import Verif.Lemmas.MapPerm
/-
The statistics of rows are the statistics of their columns.
-/
set_option autoImplicit false
namespace Verif.Stats
open Sketch Ieee

/-- the cell of a row in a column -/
def cell (i : Nat) : Val → Option Val
  | .arr l => l[i]?
  | _ => none

/-- the member of a row with a key -/
def member (k : Bytes) : Val → Option Val
  | .obj m => mapGet m k
  | _ => none

/-- the values in a column, row by row -/
def column (i : Nat) (vs : List Val) : List Val := vs.filterMap (cell i)
def field (k : Bytes) (vs : List Val) : List Val := vs.filterMap (member k)

/-- an accumulator that was given some values, the first of which it was made for -/
def run (L : Lib) : List Val → Option Acc
  | [] => none
  | v :: vs => (newAcc L v).bind fun a => (v :: vs).foldlM (write L) a

/-- further values for an accumulator there may already be -/
def resume (L : Lib) (c : Option Acc) (vs : List Val) : Option Acc :=
  match c with
  | some c => vs.foldlM (write L) c
  | none => run L vs

def start (L : Lib) (c : Option Acc) (v : Val) : Option Acc :=
  match c with
  | some c => some c
  | none => newAcc L v

theorem resume_nil (L : Lib) (c : Option Acc) : resume L c [] = c := by cases c <;> rfl

theorem resume_cons (L : Lib) (c : Option Acc) (v : Val) (vs : List Val) :
    resume L c (v :: vs) = ((start L c v).bind fun a => write L a v).bind fun a => vs.foldlM (write L) a := by
  cases c with
  | some c => simp [resume, start, List.foldlM_cons, bind]
  | none =>
    simp only [resume, start, run, List.foldlM_cons, bind]
    cases newAcc L v <;> rfl

/-! ### Rows -/

theorem writeArr_get (L : Lib) (cs : List Acc) (l : List Val) (cs' : List Acc) (h : writeArr L cs l = some cs') (i : Nat) :
    cs'[i]? = match l[i]? with | none => cs[i]? | some v => (start L cs[i]? v).bind fun a => write L a v := by
  induction l generalizing cs cs' i with
  | nil => simp only [writeArr, Option.some.injEq] at h; subst h; simp
  | cons v vs ih =>
    cases cs with
    | nil =>
      simp only [writeArr, Option.bind_eq_some_iff, Option.map_eq_some_iff] at h
      obtain ⟨a, ha, a', ha', t, ht, rfl⟩ := h
      cases i with
      | zero => simp [start, ha, ha']
      | succ i => simpa using ih [] t ht i
    | cons c cs =>
      simp only [writeArr, Option.bind_eq_some_iff, Option.map_eq_some_iff] at h
      obtain ⟨a', ha', t, ht, rfl⟩ := h
      cases i with
      | zero => simp [start, ha']
      | succ i => simpa using ih cs t ht i

theorem writeArr_mem (L : Lib) (cs : List Acc) (l : List Val) (cs' : List Acc) (h : writeArr L cs l = some cs') (i : Nat) (v : Val) (hv : l[i]? = some v) :
    ∃ c, cs'[i]? = some c := by
  induction l generalizing cs cs' i with
  | nil => simp at hv
  | cons w vs ih =>
    cases cs with
    | nil =>
      simp only [writeArr, Option.bind_eq_some_iff, Option.map_eq_some_iff] at h
      obtain ⟨a, ha, a', ha', t, ht, rfl⟩ := h
      cases i with
      | zero => exact ⟨a', rfl⟩
      | succ i => simpa using ih [] t ht i (by simpa using hv)
    | cons c cs =>
      simp only [writeArr, Option.bind_eq_some_iff, Option.map_eq_some_iff] at h
      obtain ⟨a', ha', t, ht, rfl⟩ := h
      cases i with
      | zero => exact ⟨a', rfl⟩
      | succ i => simpa using ih cs t ht i (by simpa using hv)

theorem write_arr (L : Lib) (cs : List Acc) (v : Val) (hv : ∀ l, v ≠ .arr l) : write L (.arr cs) v = some (.arr cs) := by
  cases v <;> first | rfl | exact absurd rfl (hv _)

theorem write_obj (L : Lib) (cs : List (Bytes × Acc)) (v : Val) (hv : ∀ l, v ≠ .obj l) : write L (.obj cs) v = some (.obj cs) := by
  cases v <;> first | rfl | exact absurd rfl (hv _)

theorem fold_arr (L : Lib) (vs : List Val) (cs : List Acc) (a : Acc) (h : vs.foldlM (write L) (.arr cs) = some a) :
    ∃ cs', a = .arr cs' ∧ ∀ i : Nat, cs'[i]? = resume L cs[i]? (column i vs) := by
  induction vs generalizing cs with
  | nil =>
    simp only [List.foldlM_nil, pure, Option.some.injEq] at h
    exact ⟨cs, h.symm, fun i => by simp [column, resume_nil]⟩
  | cons v vs ih =>
    simp only [List.foldlM_cons, bind, Option.bind_eq_some_iff] at h
    obtain ⟨b, hb, h⟩ := h
    by_cases hv : ∃ l, v = .arr l
    · obtain ⟨l, rfl⟩ := hv
      simp only [write, Option.map_eq_some_iff] at hb
      obtain ⟨cs₁, h1, rfl⟩ := hb
      obtain ⟨cs', ea, hcs⟩ := ih cs₁ h
      refine ⟨cs', ea, fun i => ?_⟩
      rw [hcs i]
      have hg := writeArr_get L cs l cs₁ h1 i
      cases hl : l[i]? with
      | none => simp only [hl] at hg; rw [hg]; simp [column, cell, hl]
      | some w =>
        simp only [hl] at hg
        obtain ⟨c, hc⟩ := writeArr_mem L cs l cs₁ h1 i w hl
        have : column i (.arr l :: vs) = w :: column i vs := by simp [column, cell, hl]
        rw [this, resume_cons, ← hg, hc]
        rfl
    · have hv' : ∀ l, v ≠ .arr l := fun l e => hv ⟨l, e⟩
      rw [write_arr L cs v hv'] at hb
      simp only [Option.some.injEq] at hb
      subst hb
      obtain ⟨cs', ea, hcs⟩ := ih cs h
      refine ⟨cs', ea, fun i => ?_⟩
      have : column i (v :: vs) = column i vs := by
        have : cell i v = none := by cases v <;> first | rfl | exact absurd rfl (hv' _)
        simp [column, this]
      rw [hcs i, this]

/-! ### Objects -/

theorem keysSorted_writeObj (L : Lib) (m : List (Bytes × Val)) (cs cs' : List (Bytes × Acc)) (hs : KeysSorted cs) (h : writeObj L cs m = some cs') : KeysSorted cs' := by
  induction m generalizing cs with
  | nil => simp only [writeObj, Option.some.injEq] at h; exact h ▸ hs
  | cons x m ih =>
    obtain ⟨k, v⟩ := x
    rw [writeObj] at h
    simp only [Option.bind_eq_some_iff] at h
    obtain ⟨c, _, c', _, h⟩ := h
    exact ih _ (keysSorted_mapSet k c' hs) h

theorem writeObj_get (L : Lib) (m : List (Bytes × Val)) (hm : KeysNodup m) (cs cs' : List (Bytes × Acc)) (h : writeObj L cs m = some cs') (k : Bytes) :
    mapGet cs' k = match mapGet m k with | none => mapGet cs k | some v => (start L (mapGet cs k) v).bind fun a => write L a v := by
  induction m generalizing cs with
  | nil => simp only [writeObj, Option.some.injEq] at h; subst h; simp [mapGet]
  | cons x m ih =>
    obtain ⟨j, v⟩ := x
    rw [writeObj] at h
    simp only [Option.bind_eq_some_iff] at h
    obtain ⟨c, hc, c', hc', h⟩ := h
    rw [KeysNodup, List.map_cons, List.nodup_cons] at hm
    rw [ih hm.2 _ h, mapGet]
    by_cases hk : k = j
    · subst hk
      have hn : mapGet m k = none := by
        rw [map_get_none]
        intro x hx e
        exact hm.1 (e ▸ List.mem_map_of_mem (f := (·.1)) hx)
      have hc : start L (mapGet cs k) v = some c := by
        rw [← hc]
        unfold start
        cases mapGet cs k <;> rfl
      simp only [hn, mapGet_mapSet_self, if_true, hc, Option.bind_some, hc']
    · simp only [if_neg hk, mapGet_mapSet_ne _ _ hk]

theorem writeObj_mem (L : Lib) (m : List (Bytes × Val)) (hm : KeysNodup m) (cs cs' : List (Bytes × Acc)) (h : writeObj L cs m = some cs') (k : Bytes) (v : Val)
    (hv : mapGet m k = some v) : ∃ c, mapGet cs' k = some c := by
  induction m generalizing cs with
  | nil => simp [mapGet] at hv
  | cons x m ih =>
    obtain ⟨j, w⟩ := x
    rw [writeObj] at h
    simp only [Option.bind_eq_some_iff] at h
    obtain ⟨c, hc, c', hc', h⟩ := h
    rw [KeysNodup, List.map_cons, List.nodup_cons] at hm
    rw [mapGet] at hv
    by_cases hk : k = j
    · subst hk
      have hn : mapGet m k = none := by
        rw [map_get_none]
        intro x hx e
        exact hm.1 (e ▸ List.mem_map_of_mem (f := (·.1)) hx)
      rw [writeObj_get L m hm.2 _ _ h k, hn]
      exact ⟨c', by simp only [mapGet_mapSet_self]⟩
    · rw [if_neg hk] at hv
      exact ih hm.2 _ h hv

/-- objects among the rows are maps -/
def Maps (vs : List Val) : Prop := ∀ m, .obj m ∈ vs → KeysSorted m

theorem fold_obj (L : Lib) (vs : List Val) (hvs : Maps vs) (cs : List (Bytes × Acc)) (hcs : KeysSorted cs) (a : Acc) (h : vs.foldlM (write L) (.obj cs) = some a) :
    ∃ cs', a = .obj cs' ∧ KeysSorted cs' ∧ ∀ k : Bytes, mapGet cs' k = resume L (mapGet cs k) (field k vs) := by
  induction vs generalizing cs with
  | nil =>
    simp only [List.foldlM_nil, pure, Option.some.injEq] at h
    exact ⟨cs, h.symm, hcs, fun i => by simp [field, resume_nil]⟩
  | cons v vs ih =>
    have hvs' : Maps vs := fun m hm => hvs m (List.mem_cons_of_mem _ hm)
    simp only [List.foldlM_cons, bind, Option.bind_eq_some_iff] at h
    obtain ⟨b, hb, h⟩ := h
    by_cases hv : ∃ l, v = .obj l
    · obtain ⟨l, rfl⟩ := hv
      have hl := keysNodup_sorted (hvs l (by simp))
      simp only [write, Option.map_eq_some_iff] at hb
      obtain ⟨cs₁, h1, rfl⟩ := hb
      obtain ⟨cs', ea, hs', hcs'⟩ := ih hvs' cs₁ (keysSorted_writeObj L l cs cs₁ hcs h1) h
      refine ⟨cs', ea, hs', fun i => ?_⟩
      rw [hcs' i]
      have hg := writeObj_get L l hl cs cs₁ h1 i
      cases hl' : mapGet l i with
      | none => simp only [hl'] at hg; rw [hg]; simp [field, member, hl']
      | some w =>
        simp only [hl'] at hg
        obtain ⟨c, hc⟩ := writeObj_mem L l hl cs cs₁ h1 i w hl'
        have : field i (.obj l :: vs) = w :: field i vs := by simp [field, member, hl']
        rw [this, resume_cons, ← hg, hc]
        rfl
    · have hv' : ∀ l, v ≠ .obj l := fun l e => hv ⟨l, e⟩
      rw [write_obj L cs v hv'] at hb
      simp only [Option.some.injEq] at hb
      subst hb
      obtain ⟨cs', ea, hs', hcs'⟩ := ih hvs' cs hcs h
      refine ⟨cs', ea, hs', fun i => ?_⟩
      have : field i (v :: vs) = field i vs := by
        have : member i v = none := by cases v <;> first | rfl | exact absurd rfl (hv' _)
        simp [field, this]
      rw [hcs' i, this]

/-! ### No panic -/

/-- a sketch that has been given values -/
structure GoodSk (h : Sketch UInt64) : Prop where
  room : h.cs.length < h.cap
  two : 2 ≤ h.cap
  ne : 1 ≤ h.cs.length
  count : ∃ k : Nat, 1 ≤ k ∧ k ≤ 2 ^ 53 ∧ h.count = Ieee.ofInt k

theorem goodSk_add (h : Sketch UInt64) (x : UInt64) (hr : h.cs.length < h.cap) (h2 : 2 ≤ h.cap) (hc : ∃ k : Nat, k ≤ 2 ^ 53 ∧ h.count = Ieee.ofInt k) :
    ∃ h', Sketch.add ieee h x = some h' ∧ GoodSk h' := by
  obtain ⟨cs', st, e⟩ := addMany_step ieee h x 1 hr h2
  obtain ⟨h', e', c1, c2, c3⟩ := addMany_size ieee h x 1 hr h2
  refine ⟨h', e', c2, by omega, c3, ?_⟩
  rw [e] at e'
  simp only [Option.some.injEq] at e'
  subst e'
  obtain ⟨k, hk, ek⟩ := hc
  show ∃ k : Nat, 1 ≤ k ∧ k ≤ 2 ^ 53 ∧ ieee.add h.count (ieee.ofInt 1) = Ieee.ofInt k
  rw [ek, ieee_add, ieee_ofInt]
  by_cases hlt : k < 2 ^ 53
  · exact ⟨k + 1, by omega, hlt, by rw [add_ofInt (by omega) (by decide) (by omega)]; norm_cast⟩
  · have : k = 2 ^ 53 := by omega
    subst this
    exact ⟨2 ^ 53, by decide, Nat.le_refl _, by decide +kernel⟩

theorem walk_le {α : Type} (N : Num α) (t : α) (i : Nat) (s pv : α) (cs : List (Centroid α)) : (walk N t i s pv cs).1 ≤ i + cs.length := by
  induction cs generalizing i s pv with
  | nil => simp [walk]
  | cons c cs ih =>
    simp only [walk]
    split
    · simp
    · have := ih (i + 1) (N.add s (N.add (N.div (N.abs c.m) (N.ofInt 2)) pv)) (N.div (N.abs c.m) (N.ofInt 2))
      simp only [List.length_cons]; omega

theorem getCentroids_some {α : Type} (N : Num α) (h : Sketch α) (i : Nat) (hi : i ≤ h.cs.length) (hne : 1 ≤ h.cs.length) : ∃ p, getCentroids N h i = some p := by
  unfold getCentroids
  split
  · rw [List.getElem?_eq_getElem (by omega)]; exact ⟨_, rfl⟩
  · split
    · rw [List.getLast?_eq_some_getLast (by intro e; rw [e] at hne; simp at hne)]; exact ⟨_, rfl⟩
    · rw [List.getElem?_eq_getElem (i := i - 1) (by omega), List.getElem?_eq_getElem (i := i) (by omega)]; exact ⟨_, rfl⟩

theorem lt_ofInt_one {k : Nat} (h1 : 1 ≤ k) (h2 : k ≤ 2 ^ 53) : Ieee.lt (Ieee.ofInt k) (Ieee.ofInt 1) = false := by
  rw [Bool.eq_false_iff]
  intro h
  have f1 : Ieee.Finite (Ieee.ofInt k) := finite_ofInt (by omega)
  have f2 : Ieee.Finite (Ieee.ofInt 1) := finite_ofInt (by omega)
  rw [lt_val f1.notNaN f2.notNaN, val_ofInt (by omega), val_ofInt (by omega)] at h
  exact absurd (Int.lt_of_mul_lt_mul_right h (Int.natCast_nonneg _)) (by clear h; omega)

theorem median_some (h : Sketch UInt64) (hg : GoodSk h) : ∃ q, Sketch.median h = some q := by
  obtain ⟨k, k1, k2, ek⟩ := hg.count
  have hz : ieee.lt nearHalf (ieee.ofInt 0) = false := by rw [ieee_lt, ieee_ofInt]; decide +kernel
  have ho : ieee.lt (ieee.ofInt 1) nearHalf = false := by rw [ieee_lt, ieee_ofInt]; decide +kernel
  have hc : ieee.lt h.count (ieee.ofInt 1) = false := by rw [ieee_lt, ieee_ofInt, ek]; exact lt_ofInt_one k1 k2
  unfold Sketch.median quantile
  simp only [hz, ho, hc, Bool.or_self, Bool.false_eq_true, if_false]
  obtain ⟨p, ep⟩ := getCentroids_some ieee h (walk ieee (ieee.mul nearHalf h.count) 0 (ieee.ofInt 0) (ieee.ofInt 0) h.cs).1
    (by simpa using walk_le ieee (ieee.mul nearHalf h.count) 0 (ieee.ofInt 0) (ieee.ofInt 0) h.cs) hg.ne
  rw [ep]
  exact ⟨_, rfl⟩

mutual
/-- an accumulator that has been given values -/
def Good : Acc → Prop
  | .num a => GoodSk a.sketch
  | .arr cs => GoodArr cs
  | .obj cs => GoodObj cs
  | .str _ => True
  | .bool .. => True
  | .null _ => True
def GoodArr : List Acc → Prop
  | [] => True
  | c :: cs => Good c ∧ GoodArr cs
def GoodObj : List (Bytes × Acc) → Prop
  | [] => True
  | (_, c) :: cs => Good c ∧ GoodObj cs
end

theorem goodObj_iff (cs : List (Bytes × Acc)) : GoodObj cs ↔ ∀ x ∈ cs, Good x.2 := by
  induction cs with
  | nil => simp [GoodObj]
  | cons x cs ih => obtain ⟨k, c⟩ := x; simp [GoodObj, ih]

theorem goodNum (a : NumAcc) (h : GoodSk a.sketch) (v : Val) : ∃ a', a.write v = some a' ∧ GoodSk a'.sketch := by
  unfold NumAcc.write
  split
  · exact ⟨a, rfl, h⟩
  · rename_i x _
    obtain ⟨k, _, k2, ek⟩ := h.count
    obtain ⟨h', e, g⟩ := goodSk_add a.sketch x h.room h.two ⟨k, k2, ek⟩
    rw [e]
    exact ⟨_, rfl, g⟩

theorem newNum (L : Lib) (hL : L.bins ≠ 0) (v : Val) (x : UInt64) (hx : number v = some x) :
    ∃ a a', newNumericAcc L = some a ∧ a.write v = some a' ∧ GoodSk a'.sketch := by
  have en : Sketch.new ieee L.bins = some { cs := [], cap := L.bins + 1, count := ieee.ofInt 0, min := ieee.maxFinite, max := ieee.neg ieee.maxFinite } := by
    simp [Sketch.new, hL]
  obtain ⟨h', e, g⟩ := goodSk_add { cs := [], cap := L.bins + 1, count := ieee.ofInt 0, min := ieee.maxFinite, max := ieee.neg ieee.maxFinite } x (by simp) (by simp; omega)
    ⟨0, by decide, by simp [ieee_ofInt]⟩
  unfold newNumericAcc
  rw [en]
  have ew : ∀ a : NumAcc, a.sketch = { cs := [], cap := L.bins + 1, count := ieee.ofInt 0, min := ieee.maxFinite, max := ieee.neg ieee.maxFinite } →
      ∃ a', a.write v = some a' ∧ GoodSk a'.sketch := by
    intro a ea
    unfold NumAcc.write
    simp only [hx, ea, e]
    exact ⟨_, rfl, g⟩
  obtain ⟨a', e1, e2⟩ := ew { count := 0, min := maxFloat, max := minFloat, mean := 0, median := maxFloat, dividers := [], histogram := [], sketch := _ } rfl
  exact ⟨_, a', rfl, e1, e2⟩

mutual
theorem write_good (L : Lib) (hL : L.bins ≠ 0) (a : Acc) (v : Val) (h : Good a) : ∃ a', write L a v = some a' ∧ Good a' := by
  match a, v with
  | .num a, v =>
    obtain ⟨a', e, g⟩ := goodNum a h v
    exact ⟨.num a', by cases v <;> simp [write, e], g⟩
  | .arr cs, .arr l =>
    obtain ⟨cs', e, g⟩ := writeArr_good L hL cs l h
    exact ⟨.arr cs', by simp [write, e], g⟩
  | .obj cs, .obj m =>
    obtain ⟨cs', e, g⟩ := writeObj_good L hL cs m h
    exact ⟨.obj cs', by simp [write, e], g⟩
  | .arr cs, .null | .arr cs, .bool _ | .arr cs, .int _ | .arr cs, .gint _ | .arr cs, .f64 _ | .arr cs, .str _ | .arr cs, .bytes _ | .arr cs, .obj _ => exact ⟨.arr cs, rfl, h⟩
  | .obj cs, .null | .obj cs, .bool _ | .obj cs, .int _ | .obj cs, .gint _ | .obj cs, .f64 _ | .obj cs, .str _ | .obj cs, .bytes _ | .obj cs, .arr _ => exact ⟨.obj cs, rfl, h⟩
  | .str a, v => cases v <;> exact ⟨_, rfl, trivial⟩
  | .bool c t f, v =>
    cases v with
    | bool b => cases b <;> exact ⟨_, rfl, trivial⟩
    | _ => exact ⟨_, rfl, trivial⟩
  | .null c, v => cases v <;> exact ⟨_, rfl, trivial⟩
theorem first_good (L : Lib) (hL : L.bins ≠ 0) (v : Val) : ∃ a a', newAcc L v = some a ∧ write L a v = some a' ∧ Good a' := by
  match v with
  | .null => exact ⟨_, _, rfl, rfl, trivial⟩
  | .bytes _ => exact ⟨_, _, rfl, rfl, trivial⟩
  | .bool true => exact ⟨_, _, rfl, rfl, trivial⟩
  | .bool false => exact ⟨_, _, rfl, rfl, trivial⟩
  | .str _ => exact ⟨_, _, rfl, rfl, trivial⟩
  | .int i =>
    obtain ⟨a, a', e1, e2, g⟩ := newNum L hL (.int i) _ rfl
    exact ⟨.num a, .num a', by simp [newAcc, e1], by simp [write, e2], g⟩
  | .gint i =>
    obtain ⟨a, a', e1, e2, g⟩ := newNum L hL (.gint i) _ rfl
    exact ⟨.num a, .num a', by simp [newAcc, e1], by simp [write, e2], g⟩
  | .f64 i =>
    obtain ⟨a, a', e1, e2, g⟩ := newNum L hL (.f64 i) _ rfl
    exact ⟨.num a, .num a', by simp [newAcc, e1], by simp [write, e2], g⟩
  | .arr l =>
    obtain ⟨cs', e, g⟩ := writeArr_good L hL [] l trivial
    exact ⟨.arr [], .arr cs', rfl, by simp [write, e], g⟩
  | .obj m =>
    obtain ⟨cs', e, g⟩ := writeObj_good L hL [] m trivial
    exact ⟨.obj [], .obj cs', rfl, by simp [write, e], g⟩
theorem writeArr_good (L : Lib) (hL : L.bins ≠ 0) (cs : List Acc) (l : List Val) (h : GoodArr cs) : ∃ cs', writeArr L cs l = some cs' ∧ GoodArr cs' := by
  match l with
  | [] => cases cs <;> exact ⟨_, by rw [writeArr], h⟩
  | v :: vs =>
    cases cs with
    | nil =>
      obtain ⟨a, a', e1, e2, g⟩ := first_good L hL v
      obtain ⟨cs', e, g'⟩ := writeArr_good L hL [] vs trivial
      exact ⟨a' :: cs', by simp [writeArr, e1, e2, e], g, g'⟩
    | cons c cs =>
      obtain ⟨a', e2, g⟩ := write_good L hL c v h.1
      obtain ⟨cs', e, g'⟩ := writeArr_good L hL cs vs h.2
      exact ⟨a' :: cs', by simp [writeArr, e2, e], g, g'⟩
theorem writeObj_good (L : Lib) (hL : L.bins ≠ 0) (cs : List (Bytes × Acc)) (m : List (Bytes × Val)) (h : GoodObj cs) : ∃ cs', writeObj L cs m = some cs' ∧ GoodObj cs' := by
  match m with
  | [] => exact ⟨_, by rw [writeObj], h⟩
  | (k, v) :: m =>
    have set_good : ∀ c', Good c' → GoodObj (mapSet cs k c') := by
      intro c' g
      rw [goodObj_iff] at h ⊢
      intro x hx
      rcases mem_mapSet hx with hx | hx
      · subst hx; exact g
      · exact h x hx
    cases hg : mapGet cs k with
    | none =>
      obtain ⟨a, a', e1, e2, g⟩ := first_good L hL v
      obtain ⟨cs', e, g'⟩ := writeObj_good L hL (mapSet cs k a') m (set_good a' g)
      exact ⟨cs', by simp [writeObj, hg, e1, e2, e], g'⟩
    | some c =>
      have hc : Good c := by
        rw [goodObj_iff] at h
        have : ∃ x ∈ cs, x.2 = c := by
          clear h set_good
          induction cs with
          | nil => simp [mapGet] at hg
          | cons x cs ih =>
            obtain ⟨j, d⟩ := x
            rw [mapGet] at hg
            split at hg
            · simp only [Option.some.injEq] at hg; exact ⟨_, List.mem_cons_self, hg⟩
            · obtain ⟨y, hy, e⟩ := ih hg; exact ⟨y, List.mem_cons_of_mem _ hy, e⟩
        obtain ⟨x, hx, e⟩ := this
        exact e ▸ h x hx
      obtain ⟨a', e2, g⟩ := write_good L hL c v hc
      obtain ⟨cs', e, g'⟩ := writeObj_good L hL (mapSet cs k a') m (set_good a' g)
      exact ⟨cs', by simp [writeObj, hg, e2, e], g'⟩
end

theorem fold_good (L : Lib) (hL : L.bins ≠ 0) (vs : List Val) (a : Acc) (h : Good a) : ∃ a', vs.foldlM (write L) a = some a' ∧ Good a' := by
  induction vs generalizing a with
  | nil => exact ⟨a, rfl, h⟩
  | cons v vs ih =>
    obtain ⟨b, e, g⟩ := write_good L hL a v h
    obtain ⟨a', e', g'⟩ := ih b g
    exact ⟨a', by simp [List.foldlM_cons, e, e'], g'⟩

theorem run_good (L : Lib) (hL : L.bins ≠ 0) (vs : List Val) (hne : vs ≠ []) : ∃ a, run L vs = some a ∧ Good a := by
  cases vs with
  | nil => exact absurd rfl hne
  | cons v vs =>
    obtain ⟨a, b, e1, e2, g⟩ := first_good L hL v
    obtain ⟨a', e', g'⟩ := fold_good L hL vs b g
    exact ⟨a', by simp [run, e1, List.foldlM_cons, e2, e'], g'⟩

mutual
theorem close_good (L : Lib) (a : Acc) (h : Good a) : ∃ a', close L a = some a' ∧ Good a' := by
  match a with
  | .num a =>
    obtain ⟨q, e⟩ := median_some a.sketch h
    exact ⟨.num { a with mean := Ieee.div a.mean (Ieee.ofInt a.count), dividers := (Sketch.read ieee a.sketch).1, histogram := (Sketch.read ieee a.sketch).2, median := q },
      by simp [close, NumAcc.close, e], h⟩
  | .arr cs =>
    obtain ⟨cs', e, g⟩ := closeArr_good L cs h
    exact ⟨.arr cs', by simp [close, e], g⟩
  | .obj cs =>
    obtain ⟨cs', e, g⟩ := closeObj_good L cs h
    exact ⟨.obj cs', by simp [close, e], g⟩
  | .str _ => exact ⟨_, rfl, trivial⟩
  | .bool .. => exact ⟨_, rfl, trivial⟩
  | .null _ => exact ⟨_, rfl, trivial⟩
theorem closeArr_good (L : Lib) (cs : List Acc) (h : GoodArr cs) : ∃ cs', closeArr L cs = some cs' ∧ GoodArr cs' := by
  match cs with
  | [] => exact ⟨[], rfl, trivial⟩
  | c :: cs =>
    obtain ⟨c', e1, g1⟩ := close_good L c h.1
    obtain ⟨cs', e, g⟩ := closeArr_good L cs h.2
    exact ⟨c' :: cs', by simp [closeArr, e1, e], g1, g⟩
theorem closeObj_good (L : Lib) (cs : List (Bytes × Acc)) (h : GoodObj cs) : ∃ cs', closeObj L cs = some cs' ∧ GoodObj cs' := by
  match cs with
  | [] => exact ⟨[], rfl, trivial⟩
  | (k, c) :: cs =>
    obtain ⟨c', e1, g1⟩ := close_good L c h.1
    obtain ⟨cs', e, g⟩ := closeObj_good L cs h.2
    exact ⟨(k, c') :: cs', by simp [closeObj, e1, e], g1, g⟩
end

end Verif.Stats
