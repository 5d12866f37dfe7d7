import Verif.Lemmas.Stats
import Verif.Lemmas.IeeeDiv
import Verif.Props.Streams
/-
C28, C29: the statistics of a body.
-/
set_option autoImplicit false
namespace Verif.Stats
open Sketch Ieee Streams

/-- what is reported for a body with these values -/
def statsOf (L : Lib) (vs : List Val) : Option (List (List (Bytes × Val))) := toMap ((run L vs).bind (close L))

/-- what is reported about a column of values, without its type -/
def details (L : Lib) (vs : List Val) : List (Bytes × Val) := (((run L vs).bind (close L)).map Acc.map).getD []

/-- the type reported for a column by its first value -/
def kind : Val → Bytes
  | .null => b!"null"
  | .bytes _ => b!"null"
  | .bool _ => b!"boolean"
  | .int _ => b!"numeric"
  | .gint _ => b!"numeric"
  | .f64 _ => b!"numeric"
  | .str _ => b!"string"
  | .arr _ => b!"array"
  | .obj _ => b!"object"

/-! ### Reading -/

theorem writeEntry_resume (L : Lib) (a : Option Acc) (e : Entry) : writeEntry L a e = (resume L a [e.value]).map some := by
  rw [resume_cons]
  unfold writeEntry start
  cases a <;> simp [List.foldlM_nil, pure]

theorem resume_append (L : Lib) (a : Option Acc) (v : Val) (vs : List Val) (b : Acc) (h : resume L a [v] = some b) : resume L a (v :: vs) = resume L (some b) vs := by
  rw [resume_cons] at h ⊢
  have h' : ((start L a v).bind fun a => write L a v) = some b := by
    rw [← h]
    cases ((start L a v).bind fun a => write L a v) <;> rfl
  rw [h']; rfl

theorem called_resume (L : Lib) (hL : L.bins ≠ 0) (es : List Entry) (i : Nat) (a : Option Acc) (ha : ∀ b, a = some b → Good b) :
    Called (fun _ e (t : Option (Option Acc)) => (none, t.bind fun a => writeEntry L a e)) i (some a) es (some (resume L a (es.map (·.value)))) ∧
      ∀ b, resume L a (es.map (·.value)) = some b → Good b := by
  induction es generalizing i a with
  | nil => rw [List.map_nil, resume_nil]; exact ⟨.nil _ _, ha⟩
  | cons e es ih =>
    have : ∃ b, resume L a [e.value] = some b ∧ Good b := by
      cases a with
      | none => exact run_good L hL [e.value] (by simp)
      | some a => exact fold_good L hL [e.value] a (ha a rfl)
    obtain ⟨b, hb, gb⟩ := this
    obtain ⟨h1, h2⟩ := ih (i + 1) (some b) (by intro c hc; cases hc; exact gb)
    rw [List.map_cons, resume_append L a _ _ b hb]
    refine ⟨.cons ?_ h1, h2⟩
    simp only [Option.bind_some, writeEntry_resume, hb, Option.map_some]

theorem called_unique {τ : Type} {fn : Callback τ} {i : Nat} {t t1 t2 : τ} {es : List Entry} (h1 : Called fn i t es t1) (h2 : Called fn i t es t2) : t1 = t2 := by
  induction h1 with
  | nil => cases h2; rfl
  | cons a _ ih =>
    cases h2 with
    | cons b c =>
      rw [a] at b
      cases b
      exact ih c

/-- closing what was read, once and again -/
theorem close_twice (L : Lib) (a : Option Acc) (ha : ∀ b, a = some b → Good b) :
    closeAcc L a = some (a.bind (close L)) ∧ ∃ c, closeAcc L (a.bind (close L)) = some c := by
  cases a with
  | none => exact ⟨rfl, none, rfl⟩
  | some a =>
    obtain ⟨b, e, g⟩ := close_good L a (ha a rfl)
    obtain ⟨c, e', _⟩ := close_good L b g
    exact ⟨by simp [closeAcc, e], some c, by simp [closeAcc, e, e']⟩

/-- The statistics of a reader that ends are those of the values of its entries, and there never is a panic; a failure of the reader is returned instead. -/
theorem C28_reads {σ : Type} (L : Lib) (hL : L.bins ≠ 0) (rd : Reader σ) (s : σ) (r : Res) :
    (∃ n, calculate L rd n s = some r) ↔
      ∃ x es s', Drains rd s es x s' ∧ r = if x.text = b!"EOF" then .ok (statsOf L (es.map (·.value))) else .err (.readErr es.length x.text) := by
  constructor
  · rintro ⟨n, h⟩
    unfold calculate at h
    rw [Option.map_eq_some_iff] at h
    obtain ⟨⟨q, s', t⟩, h, hr⟩ := h
    rcases each_cases h with ⟨x, es, hd, hc, hq⟩ | ⟨x, es, e, t₁, _, _, hc, _⟩
    · obtain ⟨h1, h2⟩ := called_resume L hL es 0 none (by intro b hb; cases hb)
      have := called_unique hc h1
      subst this
      refine ⟨x, es, s', hd, ?_⟩
      obtain ⟨c1, c, c2⟩ := close_twice L _ h2
      simp only at hr
      rw [← hr, hq]
      by_cases hE : x.text = b!"EOF"
      · simp only [if_pos hE, c1, Option.bind_some, c2, Option.map_some, Option.getD_some]
        rfl
      · simp only [if_neg hE, c1, Option.map_some, Option.getD_some, Nat.zero_add]
    · cases hc
  · rintro ⟨x, es, s', ⟨s₁, hy, hx⟩, hr⟩
    obtain ⟨h1, h2⟩ := called_resume L hL es 0 none (by intro b hb; cases hb)
    obtain ⟨c1, c, c2⟩ := close_twice L _ h2
    refine ⟨es.length + 1, ?_⟩
    unfold calculate
    rw [each_yields hy h1, eachEntry, hx]
    simp only [Option.map_some, hr, Nat.zero_add]
    by_cases hE : x.text = b!"EOF"
    · simp only [if_pos hE, c1, Option.bind_some, c2, Option.map_some, Option.getD_some]
      rfl
    · simp only [if_neg hE, c1, Option.map_some, Option.getD_some]

/-- asked for no bins at all, the first number panics -/
theorem C28_no_bins (L : Lib) (hL : L.bins = 0) (x : UInt64) : writeEntry L none { value := .f64 x } = none := by
  simp [writeEntry, newAcc, newNumericAcc, Sketch.new, hL]

/-! ### Columns -/

theorem type_write (L : Lib) (a b : Acc) (v : Val) (h : write L a v = some b) : b.type = a.type := by
  cases a with
  | num a =>
    have : write L (.num a) v = (a.write v).map .num := by cases v <;> rfl
    rw [this, Option.map_eq_some_iff] at h
    obtain ⟨c, _, rfl⟩ := h
    rfl
  | arr cs =>
    cases v <;> simp only [write, Option.some.injEq, Option.map_eq_some_iff] at h <;> first | (subst h; rfl) | (obtain ⟨c, _, rfl⟩ := h; rfl)
  | obj cs =>
    cases v <;> simp only [write, Option.some.injEq, Option.map_eq_some_iff] at h <;> first | (subst h; rfl) | (obtain ⟨c, _, rfl⟩ := h; rfl)
  | str cs => cases v <;> simp only [write, Option.some.injEq] at h <;> (subst h; rfl)
  | bool c t f =>
    cases v with
    | bool b => cases b <;> simp only [write, Option.some.injEq] at h <;> (subst h; rfl)
    | _ => simp only [write, Option.some.injEq] at h; subst h; rfl
  | null c => cases v <;> simp only [write, Option.some.injEq] at h <;> (subst h; rfl)

theorem type_fold (L : Lib) (vs : List Val) (a b : Acc) (h : vs.foldlM (write L) a = some b) : b.type = a.type := by
  induction vs generalizing a with
  | nil => simp only [List.foldlM_nil, pure, Option.some.injEq] at h; rw [h]
  | cons v vs ih =>
    simp only [List.foldlM_cons, bind, Option.bind_eq_some_iff] at h
    obtain ⟨c, hc, h⟩ := h
    rw [ih c h, type_write L a c v hc]

theorem type_new (L : Lib) (v : Val) (a : Acc) (h : newAcc L v = some a) : a.type = kind v := by
  cases v <;> simp only [newAcc, Option.some.injEq, Option.map_eq_some_iff] at h <;> first | (subst h; rfl) | (obtain ⟨c, _, rfl⟩ := h; rfl)

theorem type_run (L : Lib) (v : Val) (vs : List Val) (a : Acc) (h : run L (v :: vs) = some a) : a.type = kind v := by
  simp only [run, Option.bind_eq_some_iff] at h
  obtain ⟨b, hb, h⟩ := h
  rw [type_fold L _ b a h, type_new L v b hb]

theorem type_close (L : Lib) (a b : Acc) (h : close L a = some b) : b.type = a.type := by
  cases a <;> simp only [close, Option.some.injEq, Option.map_eq_some_iff] at h <;> first | (subst h; rfl) | (obtain ⟨c, _, rfl⟩ := h; rfl)

theorem closeArr_get (L : Lib) (cs cs' : List Acc) (h : closeArr L cs = some cs') (i : Nat) : cs'[i]? = cs[i]?.bind (close L) := by
  induction cs generalizing cs' i with
  | nil => simp only [closeArr, Option.some.injEq] at h; subst h; rfl
  | cons c cs ih =>
    simp only [closeArr, Option.bind_eq_some_iff, Option.map_eq_some_iff] at h
    obtain ⟨c', hc, t, ht, rfl⟩ := h
    cases i with
    | zero => simp [hc]
    | succ i => simpa using ih t ht i

theorem closeObj_keys (L : Lib) (cs cs' : List (Bytes × Acc)) (h : closeObj L cs = some cs') : cs'.map (·.1) = cs.map (·.1) := by
  induction cs generalizing cs' with
  | nil => simp only [closeObj, Option.some.injEq] at h; subst h; rfl
  | cons x cs ih =>
    obtain ⟨k, c⟩ := x
    simp only [closeObj, Option.bind_eq_some_iff, Option.map_eq_some_iff] at h
    obtain ⟨c', hc, t, ht, rfl⟩ := h
    simp [ih t ht]

theorem closeObj_get (L : Lib) (cs cs' : List (Bytes × Acc)) (h : closeObj L cs = some cs') (k : Bytes) : mapGet cs' k = (mapGet cs k).bind (close L) := by
  induction cs generalizing cs' with
  | nil => simp only [closeObj, Option.some.injEq] at h; subst h; rfl
  | cons x cs ih =>
    obtain ⟨j, c⟩ := x
    simp only [closeObj, Option.bind_eq_some_iff, Option.map_eq_some_iff] at h
    obtain ⟨c', hc, t, ht, rfl⟩ := h
    simp only [mapGet]
    split
    · simp [hc]
    · exact ih t ht

theorem keysSorted_keys {α β : Type} {a : List (Bytes × α)} {b : List (Bytes × β)} (h : a.map (·.1) = b.map (·.1)) (hb : KeysSorted b) : KeysSorted a := by
  have : (a.map (·.1)).Pairwise fun x y => bytesLt x y = true := by
    rw [h]
    exact List.pairwise_map.mpr hb
  exact List.pairwise_map.mp this

theorem mapArr_get (cs : List Acc) (i : Nat) : (mapArr cs)[i]? = cs[i]?.map fun c => Val.obj c.map := by
  induction cs generalizing i with
  | nil => rfl
  | cons c cs ih =>
    cases i with
    | zero => rfl
    | succ i => simpa [mapArr] using ih i

theorem mapObj_eq (cs : List (Bytes × Acc)) : mapObj cs = cs.map fun p => (p.1, Val.obj p.2.map) := by
  induction cs with
  | nil => rfl
  | cons x cs ih => obtain ⟨k, c⟩ := x; simp [mapObj, ih]

theorem run_arr (L : Lib) (hL : L.bins ≠ 0) (l : List Val) (vs : List Val) :
    ∃ cs, (run L (.arr l :: vs)).bind (close L) = some (.arr cs) ∧ ∀ i : Nat, cs[i]? = (run L (column i (.arr l :: vs))).bind (close L) := by
  obtain ⟨a, ha, ga⟩ := run_good L hL (.arr l :: vs) (by simp)
  obtain ⟨b, hb, _⟩ := close_good L a ga
  have h : (Val.arr l :: vs).foldlM (write L) (.arr []) = some a := ha
  obtain ⟨cs, rfl, hcs⟩ := fold_arr L _ _ _ h
  simp only [close, Option.map_eq_some_iff] at hb
  obtain ⟨cs', hc, rfl⟩ := hb
  refine ⟨cs', by simp [ha, close, hc], fun i => ?_⟩
  rw [closeArr_get L cs cs' hc i, hcs i]
  rfl

theorem run_obj (L : Lib) (hL : L.bins ≠ 0) (m : List (Bytes × Val)) (vs : List Val) (hm : Maps (.obj m :: vs)) :
    ∃ cs, (run L (.obj m :: vs)).bind (close L) = some (.obj cs) ∧ KeysSorted cs ∧ ∀ k : Bytes, mapGet cs k = (run L (field k (.obj m :: vs))).bind (close L) := by
  obtain ⟨a, ha, ga⟩ := run_good L hL (.obj m :: vs) (by simp)
  obtain ⟨b, hb, _⟩ := close_good L a ga
  have h : (Val.obj m :: vs).foldlM (write L) (.obj []) = some a := ha
  obtain ⟨cs, rfl, hs, hcs⟩ := fold_obj L _ hm _ (by simp [KeysSorted]) _ h
  simp only [close, Option.map_eq_some_iff] at hb
  obtain ⟨cs', hc, rfl⟩ := hb
  refine ⟨cs', by simp [ha, close, hc], keysSorted_keys (closeObj_keys L cs cs' hc) hs, fun i => ?_⟩
  rw [closeObj_get L cs cs' hc i, hcs i]
  rfl

/-- a column that has values has statistics -/
theorem closed (L : Lib) (hL : L.bins ≠ 0) (v : Val) (vs : List Val) :
    ∃ a, (run L (v :: vs)).bind (close L) = some a ∧ a.type = kind v ∧ a.map = details L (v :: vs) := by
  obtain ⟨a, ha, ga⟩ := run_good L hL (v :: vs) (by simp)
  obtain ⟨b, hb, _⟩ := close_good L a ga
  refine ⟨b, by simp [ha, hb], ?_, by simp [details, ha, hb]⟩
  rw [type_close L a b hb, type_run L v vs a ha]

/-- Nothing is reported for an empty body. -/
theorem C29_empty (L : Lib) : statsOf L [] = none := rfl

/-- If the first row is an array there are statistics for each column any row has, in the order of the columns; each is that of the values in that column alone,
with the type of the first of them. -/
theorem C29_rows (L : Lib) (hL : L.bins ≠ 0) (l : List Val) (vs : List Val) :
    ∃ st, statsOf L (.arr l :: vs) = some st ∧ ∀ i : Nat, st[i]? =
      match column i (.arr l :: vs) with
      | [] => none
      | w :: ws => some (mapSet (details L (w :: ws)) b!"type" (.str (kind w))) := by
  obtain ⟨cs, e, hcs⟩ := run_arr L hL l vs
  refine ⟨cs.map report, by rw [statsOf, e]; rfl, fun i => ?_⟩
  rw [List.getElem?_map, hcs i]
  cases column i (.arr l :: vs) with
  | nil => rfl
  | cons w ws =>
    obtain ⟨a, ea, ta, ma⟩ := closed L hL w ws
    rw [ea]
    simp [report, ta, ma]

/-- If the first row is an object there are statistics for each key any row has, in the order of the keys; each is that of the values under that key alone,
with the key and the type of the first of them. -/
theorem C29_fields (L : Lib) (hL : L.bins ≠ 0) (m : List (Bytes × Val)) (vs : List Val) (hm : Maps (.obj m :: vs)) :
    ∃ ks : List Bytes, ks.Pairwise (fun j k => bytesLt j k = true) ∧ (∀ k, k ∈ ks ↔ field k (.obj m :: vs) ≠ []) ∧
      statsOf L (.obj m :: vs) = some (ks.map fun k =>
        mapSet (mapSet (details L (field k (.obj m :: vs))) b!"key" (.str k)) b!"type" (.str ((field k (.obj m :: vs)).head?.elim [] kind))) := by
  obtain ⟨cs, e, hs, hcs⟩ := run_obj L hL m vs hm
  refine ⟨cs.map (·.1), List.pairwise_map.mpr (by exact hs), fun k => ?_, ?_⟩
  · have : k ∈ cs.map (·.1) ↔ mapGet cs k ≠ none := by
      rw [ne_eq, map_get_none]
      simp only [List.mem_map, not_forall]
      constructor
      · rintro ⟨x, hx, rfl⟩; exact ⟨x, hx, fun h => h rfl⟩
      · rintro ⟨x, hx, h⟩; exact ⟨x, hx, Classical.not_not.mp h⟩
    rw [this, hcs k]
    cases field k (.obj m :: vs) with
    | nil => simp [run]
    | cons w ws =>
      obtain ⟨a, ea, _, _⟩ := closed L hL w ws
      rw [ea]; simp
  · rw [statsOf, e, toMap, List.map_map]
    congr 1
    apply List.map_congr_left
    rintro ⟨k, c⟩ hx
    have hg : mapGet cs k = some c := (map_get_mem hs).mpr hx
    rw [hcs k] at hg
    simp only [Function.comp_apply, reportKeyed]
    cases hf : field k (.obj m :: vs) with
    | nil => rw [hf] at hg; simp [run] at hg
    | cons w ws =>
      rw [hf] at hg
      obtain ⟨a, ea, ta, ma⟩ := closed L hL w ws
      rw [ea] at hg
      cases hg
      simp [ta, ma]

/-- If the first value is neither an array nor an object there is one statistic, that of all values. -/
theorem C29_values (L : Lib) (hL : L.bins ≠ 0) (v : Val) (vs : List Val) (h1 : ∀ l, v ≠ .arr l) (h2 : ∀ m, v ≠ .obj m) :
    statsOf L (v :: vs) = some [mapSet (details L (v :: vs)) b!"type" (.str (kind v))] := by
  obtain ⟨a, ea, ta, ma⟩ := closed L hL v vs
  rw [statsOf, ea, ← ta, ← ma]
  cases a with
  | obj cs => exfalso; cases v <;> first | exact absurd rfl (h2 _) | (revert ta; simp [Acc.type, kind])
  | arr cs => exfalso; cases v <;> first | exact absurd rfl (h1 _) | (revert ta; simp [Acc.type, kind])
  | _ => rfl

/-- arrays in a column: the same, one level deeper, without types -/
theorem C29_arrays (L : Lib) (hL : L.bins ≠ 0) (l : List Val) (vs : List Val) :
    ∃ cols, details L (.arr l :: vs) = [(b!"values", .arr cols)] ∧ ∀ i : Nat, cols[i]? =
      match column i (.arr l :: vs) with
      | [] => none
      | w :: ws => some (.obj (details L (w :: ws))) := by
  obtain ⟨cs, e, hcs⟩ := run_arr L hL l vs
  refine ⟨mapArr cs, by rw [details, e]; rfl, fun i => ?_⟩
  rw [mapArr_get, hcs i]
  cases column i (.arr l :: vs) with
  | nil => rfl
  | cons w ws =>
    obtain ⟨a, ea, ta, ma⟩ := closed L hL w ws
    rw [ea]
    simp [ma]

/-- objects in a column: the same, one level deeper, without types -/
theorem C29_objects (L : Lib) (hL : L.bins ≠ 0) (m : List (Bytes × Val)) (vs : List Val) (hm : Maps (.obj m :: vs)) :
    KeysSorted (details L (.obj m :: vs)) ∧ ∀ k, mapGet (details L (.obj m :: vs)) k =
      match field k (.obj m :: vs) with
      | [] => none
      | w :: ws => some (.obj (details L (w :: ws))) := by
  obtain ⟨cs, e, hs, hcs⟩ := run_obj L hL m vs hm
  have ed : details L (.obj m :: vs) = cs.map fun p => (p.1, Val.obj p.2.map) := by rw [details, e, ← mapObj_eq]; rfl
  rw [ed]
  refine ⟨keysSorted_keys (by rw [List.map_map]; rfl) hs, fun k => ?_⟩
  have : mapGet (cs.map fun p => (p.1, Val.obj p.2.map)) k = (mapGet cs k).map fun c => Val.obj c.map := by
    clear hs hcs e ed
    induction cs with
    | nil => rfl
    | cons x cs ih => obtain ⟨j, c⟩ := x; simp only [List.map_cons, mapGet]; split <;> simp [ih]
  rw [this, hcs k]
  cases field k (.obj m :: vs) with
  | nil => rfl
  | cons w ws =>
    obtain ⟨a, ea, ta, ma⟩ := closed L hL w ws
    rw [ea]
    simp [ma]

/-- The order in which Go goes through the members of a row makes no difference. -/
theorem C29_order (L : Lib) (hL : L.bins ≠ 0) (cs : List (Bytes × Acc)) (hg : GoodObj cs) (hs : KeysSorted cs) (m m' : List (Bytes × Val)) (hm : KeysSorted m) (hp : m'.Perm m) :
    writeObj L cs m' = writeObj L cs m := by
  have hn := keysNodup_sorted hm
  have hn' := (keysNodup_perm hp).mpr hn
  obtain ⟨a, ea, _⟩ := writeObj_good L hL cs m hg
  obtain ⟨b, eb, _⟩ := writeObj_good L hL cs m' hg
  rw [ea, eb]
  congr 1
  refine map_ext (keysSorted_writeObj L m' cs b hs eb) (keysSorted_writeObj L m cs a hs ea) fun k => ?_
  rw [writeObj_get L m' hn' cs b eb, writeObj_get L m hn cs a ea, mapGet_perm hp hn]

end Verif.Stats
