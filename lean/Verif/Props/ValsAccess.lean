import Verif.Model.ValsAccess
import Verif.Lemmas.MapPerm
import Verif.Lemmas.Ieee
import Verif.Props.Vals
import Verif.Props.Tabular
import Verif.Props.ValsJson
import Verif.Lemmas.JsonTreeParse
import Verif.Lemmas.JsonEnc
/-
C75: the methods of values, values with a key, and the JSON text of values.
-/
set_option autoImplicit false
namespace Verif.Vals
open JsonStd

/-! ### Which method fits which type -/

/-- the types a method is for -/
inductive Fits : Method → VType → Prop
  | len : Fits .len .array
  | index : Fits .index .array
  | keys : Fits .keys .object
  | mapIndex : Fits .mapIndex .object
  | boolean : Fits .boolean .boolean
  | integer : Fits .integer .integer
  | number : Fits .number .number
  | whole : Fits .number .integer

/-- the outcome of a call: it works if the method is for the type, otherwise it panics with the method and the type -/
def Answers {α : Type} (m : Method) (t : VType) (r : Except Panic α) : Prop :=
  (Fits m t → ∃ a, r = .ok a) ∧ (¬ Fits m t → r = .error (.value m.name t))

/-- **C75**: every method but `Index` works exactly on the types it is for and otherwise panics with its name and the type;
`Index` also needs an index in range -/
theorem C75_fits (v : Value) (order : List Bytes → List Bytes) (i : Int) (k : Bytes) :
    Answers .len v.type v.len ∧ Answers .keys v.type (v.keys order) ∧ Answers .mapIndex v.type (v.mapIndex k) ∧
    Answers .boolean v.type v.boolean_ ∧ Answers .integer v.type v.integer_ ∧ Answers .number v.type v.number_ ∧
    (¬ Fits .index v.type → v.index i = .error (.value b!"Index" v.type)) ∧
    (Fits .index v.type → ∃ n : Nat, v.len = .ok (n : Int) ∧ ((∃ x, v.index i = .ok x) ↔ 0 ≤ i ∧ i < n) ∧
      (¬ (0 ≤ i ∧ i < n) → v.index i = .error (.outOfRange i n))) := by
  cases v
  case array p l =>
    refine ⟨⟨fun h => ?_, fun h => ?_⟩, ⟨fun h => ?_, fun h => ?_⟩, ⟨fun h => ?_, fun h => ?_⟩, ⟨fun h => ?_, fun h => ?_⟩, ⟨fun h => ?_, fun h => ?_⟩,
      ⟨fun h => ?_, fun h => ?_⟩, fun h => absurd .index h, fun _ => ⟨l.length, rfl, ?_, ?_⟩⟩
    case refine_13 =>
      simp only [Value.index]
      by_cases h0 : 0 ≤ i
      · rw [if_pos h0]
        by_cases h1 : i.toNat < l.length
        · rw [List.getElem?_eq_getElem h1]
          exact ⟨fun _ => ⟨h0, by omega⟩, fun _ => ⟨_, rfl⟩⟩
        · rw [List.getElem?_eq_none (by omega)]
          exact ⟨(fun ⟨_, h⟩ => nomatch h), fun h => absurd h.2 (by omega)⟩
      · rw [if_neg h0]
        exact ⟨(fun ⟨_, h⟩ => nomatch h), fun h => absurd h.1 h0⟩
    case refine_14 =>
      intro h
      simp only [Value.index]
      by_cases h0 : 0 ≤ i
      · rw [if_pos h0, List.getElem?_eq_none (by omega)]
      · rw [if_neg h0]
    all_goals first | exact ⟨_, rfl⟩ | rfl | exact absurd (by constructor) h | (cases h; done)
  all_goals
    refine ⟨⟨fun h => ?_, fun h => ?_⟩, ⟨fun h => ?_, fun h => ?_⟩, ⟨fun h => ?_, fun h => ?_⟩, ⟨fun h => ?_, fun h => ?_⟩, ⟨fun h => ?_, fun h => ?_⟩,
      ⟨fun h => ?_, fun h => ?_⟩, fun h => ?_, fun h => nomatch h⟩
    all_goals first | exact ⟨_, rfl⟩ | rfl | exact absurd (by constructor) h | (cases h; done)

/-- **C75**: the text of such a panic names the method and the type of the value; the words for an unknown type are never used -/
theorem C75_panic_text (v : Value) (m : Method) :
    (Panic.value m.name v.type).text = some (b!"data: call of " ++ m.name ++ b!" on " ++ v.type.name ++ b!" Value") := by
  have : v.type ≠ .unknown := by cases v <;> simp [Value.type]
  simp only [Panic.text, if_neg this]

example : (Panic.value Method.index.name (Value.string b!"x").type).text = some b!"data: call of Index on string Value" := rfl

/-- **C75**: exactly nulls are null -/
theorem C75_isNull (v : Value) : v.isNull = true ↔ v.type = .null := by cases v <;> simp [Value.isNull, Value.type]

/-- **C75**: `Number` of a whole number is a float that no other is nearer to, and exact up to 2^53 -/
theorem C75_number (i : Int) (h : IsInt64 i) : ∃ x, (Value.integer i).number_ = .ok x ∧ Ieee.Finite x ∧
    (∀ y, (Ieee.val x - i * Ieee.unit).natAbs ≤ (Ieee.val y - i * Ieee.unit).natAbs) ∧ (i.natAbs ≤ 2 ^ 53 → Ieee.val x = i * Ieee.unit) := by
  have hb : i.natAbs ≤ 2 ^ 63 := by unfold IsInt64 at h; omega
  obtain ⟨h1, h2⟩ := Ieee.ofInt_nearest i hb
  exact ⟨_, rfl, h1, h2, Ieee.val_ofInt⟩

example : (Value.integer 3).number_.toOption = some 0x4008000000000000 := by decide +kernel

/-- **C75**: how the methods are called in the texts -/
theorem C75_names (m : Method) : (m, m.name) ∈
    [(Method.len, b!"Len"), (.index, b!"Index"), (.keys, b!"Keys"), (.mapIndex, b!"MapIndex"), (.boolean, b!"Boolean"), (.integer, b!"Integer"), (.number, b!"Number")] := by
  cases m <;> decide
/-! ### Data read through the methods -/

/-- data in which every whole number is an `int` -/
inductive AsInt : Val → Val → Prop
  | null : AsInt .null .null
  | bool (b : Bool) : AsInt (.bool b) (.bool b)
  | int64 (i : Int) : AsInt (.int i) (.gint i)
  | int (i : Int) : AsInt (.gint i) (.gint i)
  | float (x : UInt64) : AsInt (.f64 x) (.f64 x)
  | str (s : Bytes) : AsInt (.str s) (.str s)
  | arr (l m : List Val) (hl : l.length = m.length) (h : ∀ (i : Nat) (a b : Val), l[i]? = some a → m[i]? = some b → AsInt a b) : AsInt (.arr l) (.arr m)
  | obj (l m : List (Bytes × Val)) (hk : l.map (·.1) = m.map (·.1))
      (h : ∀ (i : Nat) (a b : Bytes × Val), l[i]? = some a → m[i]? = some b → AsInt a.2 b.2) : AsInt (.obj l) (.obj m)

/-- one value gone through with the methods alone, `n` levels deep -/
def rebuild (order : List Bytes → List Bytes) : Nat → Value → Option Val
  | 0, _ => none
  | n + 1, v =>
    match v.type with
    | .null => if v.isNull then some .null else none
    | .boolean => v.boolean_.toOption.map .bool
    | .integer => v.integer_.toOption.map .gint
    | .number => v.number_.toOption.map .f64
    | .string => some (.str v.text)
    | .array => v.len.toOption.bind fun k => ((List.range k.toNat).mapM fun i : Nat => (v.index i).toOption.bind (rebuild order n)).map .arr
    | .object => (v.keys order).toOption.bind fun ks =>
        (ks.mapM fun k => (v.mapIndex k).toOption.join.bind fun x => (rebuild order n x).map fun d => (k, d)).map fun l => .obj (mapOf l)
    | _ => none

mutual
/-- objects have their keys once -/
def Value.MapsOK : Value → Prop
  | .array _ l => Value.MapsOKL l
  | .object _ m => KeysSorted m ∧ Value.MapsOKF m
  | _ => True
def Value.MapsOKL : List Value → Prop
  | [] => True
  | v :: l => v.MapsOK ∧ Value.MapsOKL l
def Value.MapsOKF : List (Bytes × Value) → Prop
  | [] => True
  | (_, v) :: m => v.MapsOK ∧ Value.MapsOKF m
end

theorem mapsOKL_mem {l : List Value} (h : Value.MapsOKL l) : ∀ v ∈ l, v.MapsOK := by
  induction l with
  | nil => simp
  | cons x l ih =>
    intro v hv
    rcases List.mem_cons.1 hv with rfl | hv
    · exact h.1
    · exact ih h.2 v hv

theorem mapsOKF_mem {m : List (Bytes × Value)} (h : Value.MapsOKF m) : ∀ x ∈ m, x.2.MapsOK := by
  induction m with
  | nil => simp
  | cons x l ih =>
    intro v hv
    rcases List.mem_cons.1 hv with rfl | hv
    · exact h.1
    · exact ih h.2 v hv

theorem dataL_eq (l : List Value) : Value.dataL l = l.map Value.data := by
  induction l with
  | nil => rfl
  | cons v l ih => rw [Value.dataL, ih, List.map_cons]

theorem dataF_eq (m : List (Bytes × Value)) : Value.dataF m = m.map fun x => (x.1, x.2.data) := by
  induction m with
  | nil => rfl
  | cons v l ih => rw [Value.dataF, ih, List.map_cons]

theorem depthL_mem {l : List Val} : ∀ v ∈ l, depth v ≤ depthL l := by
  induction l with
  | nil => simp
  | cons x l ih =>
    intro v hv
    rw [depthL]
    rcases List.mem_cons.1 hv with rfl | hv
    · omega
    · have := ih v hv; omega

theorem depthF_mem {m : List (Bytes × Val)} : ∀ x ∈ m, depth x.2 ≤ depthF m := by
  induction m with
  | nil => simp
  | cons x l ih =>
    intro v hv
    rw [depthF]
    rcases List.mem_cons.1 hv with rfl | hv
    · omega
    · have := ih v hv; omega

theorem mapM_some {α β : Type} (f : α → Option β) (g : α → β) (l : List α) (h : ∀ a ∈ l, f a = some (g a)) : l.mapM f = some (l.map g) := by
  induction l with
  | nil => rfl
  | cons a l ih =>
    rw [List.mapM_cons, h a (by simp), ih fun b hb => h b (by simp [hb])]
    rfl

theorem keysSorted_map {α β : Type} (g : α → β) {m : List (Bytes × α)} (h : KeysSorted m) : KeysSorted (m.map fun x => (x.1, g x.2)) := by
  unfold KeysSorted at *
  rw [List.pairwise_map]
  exact h

/-- **C75**: whatever order `Keys` gives, going through a value with the methods yields the data that is in it, so nothing is
hidden and nothing panics -/
theorem C75_rebuild (order : List Bytes → List Bytes) (ho : ∀ l, (order l).Perm l) (n : Nat) (v : Value) (hm : v.MapsOK) (hn : depth v.data < n) :
    rebuild order n v = some v.data := by
  induction n generalizing v with
  | zero => omega
  | succ n ih =>
    cases v
    case array p l =>
      have hl := mapsOKL_mem hm
      simp only [Value.data, depth] at hn
      simp only [rebuild, Value.type, Value.len, Except.toOption, Option.bind_some, Int.toNat_natCast]
      rw [mapM_some _ (fun i => (l.map Value.data).getD i .null) _ fun i hi => ?_]
      · simp only [Option.map_some, Value.data, dataL_eq]
        congr 2
        apply List.ext_getElem? 
        intro i
        rw [List.getElem?_map]
        by_cases hi : i < l.length
        · rw [List.getElem?_range hi]
          simp [List.getElem?_eq_getElem hi]
        · simp [List.getElem?_eq_none (Nat.le_of_not_lt hi)]
          omega
      · rw [List.mem_range] at hi
        have hx := List.getElem_mem hi
        simp only [Value.index, Int.natCast_nonneg, if_true, Int.toNat_natCast, List.getElem?_eq_getElem hi, Option.bind_some]
        rw [ih _ (hl _ hx) (by
          have := depthL_mem (l := Value.dataL l) (l[i].data) (by rw [dataL_eq]; exact List.mem_map_of_mem hx)
          omega)]
        simp [List.getElem?_eq_getElem hi]
    case object p m =>
      obtain ⟨hs, hf⟩ := hm
      have hf := mapsOKF_mem hf
      have hnd := keysNodup_sorted hs
      simp only [Value.data, depth] at hn
      simp only [rebuild, Value.type, Value.keys, Except.toOption, Option.bind_some]
      rw [mapM_some _ (fun k => (k, ((mapGet m k).map Value.data).getD .null)) _ fun k hk => ?_]
      · simp only [Option.map_some, Value.data, dataF_eq]
        congr 2
        have hp : ((order (m.map (·.1))).map fun k => (k, ((mapGet m k).map Value.data).getD .null)).Perm (m.map fun x => (x.1, x.2.data)) := by
          refine ((ho _).map _).trans (List.Perm.of_eq ?_)
          rw [List.map_map]
          refine List.map_congr_left fun x hx => ?_
          have : mapGet m x.1 = some x.2 := (mapGet_mem_nodup hnd).2 hx
          simp [this]
        exact foldSet_perm hp (keysSorted_map _ hs)
      · have hk' := ((ho _).mem_iff).1 hk
        obtain ⟨⟨k', x⟩, hx, rfl⟩ := List.mem_map.1 hk'
        have hg : mapGet m k' = some x := (mapGet_mem_nodup hnd).2 hx
        simp only [Value.mapIndex, hg, Option.join_some, Option.bind_some]
        rw [ih x (hf _ hx) (by
          have := depthF_mem (m := Value.dataF m) (k', x.data) (by rw [dataF_eq]; exact List.mem_map_of_mem (f := fun x : Bytes × Value => (x.1, x.2.data)) hx)
          simp only at this
          omega)]
        rfl
    all_goals rfl

mutual
theorem data_convert : ∀ (d : Val) (v : Value), convertDecoded d = some v → AsInt d v.data
  | .null, v, h => by simp only [convertDecoded, Option.some.injEq] at h; subst h; exact .null
  | .bool b, v, h => by simp only [convertDecoded, Option.some.injEq] at h; subst h; exact .bool b
  | .int i, v, h => by simp only [convertDecoded, Option.some.injEq] at h; subst h; exact .int64 i
  | .gint i, v, h => by simp only [convertDecoded, Option.some.injEq] at h; subst h; exact .int i
  | .f64 x, v, h => by simp only [convertDecoded, Option.some.injEq] at h; subst h; exact .float x
  | .str s, v, h => by simp only [convertDecoded, Option.some.injEq] at h; subst h; exact .str s
  | .bytes s, v, h => by simp [convertDecoded] at h
  | .arr l, v, h => by
    simp only [convertDecoded, Option.map_eq_some_iff] at h
    obtain ⟨x, hx, rfl⟩ := h
    obtain ⟨h1, h2⟩ := dataL_convert l x hx
    exact .arr l _ h1 h2
  | .obj m, v, h => by
    simp only [convertDecoded, Option.map_eq_some_iff] at h
    obtain ⟨x, hx, rfl⟩ := h
    obtain ⟨h1, h2⟩ := dataF_convert m x hx
    exact .obj m _ h1 h2
theorem dataL_convert : ∀ (l : List Val) (x : List Value), convertL l = some x → l.length = (Value.dataL x).length ∧
    ∀ (i : Nat) (a b : Val), l[i]? = some a → (Value.dataL x)[i]? = some b → AsInt a b
  | [], x, h => by
    simp only [convertL, Option.some.injEq] at h; subst h
    exact ⟨rfl, fun i a b h => by simp at h⟩
  | d :: l, x, h => by
    simp only [convertL, Option.bind_eq_some_iff, Option.map_eq_some_iff] at h
    obtain ⟨y, hy, z, hz, rfl⟩ := h
    obtain ⟨h1, h2⟩ := dataL_convert l z hz
    refine ⟨by simp [Value.dataL, h1], fun i a b ha hb => ?_⟩
    cases i with
    | zero =>
      simp only [List.getElem?_cons_zero, Option.some.injEq, Value.dataL] at ha hb
      subst ha hb
      exact data_convert d y hy
    | succ i =>
      simp only [List.getElem?_cons_succ, Value.dataL] at ha hb
      exact h2 i a b ha hb
theorem dataF_convert : ∀ (m : List (Bytes × Val)) (x : List (Bytes × Value)), convertF m = some x → m.map (·.1) = (Value.dataF x).map (·.1) ∧
    ∀ (i : Nat) (a b : Bytes × Val), m[i]? = some a → (Value.dataF x)[i]? = some b → AsInt a.2 b.2
  | [], x, h => by
    simp only [convertF, Option.some.injEq] at h; subst h
    exact ⟨rfl, fun i a b h => by simp at h⟩
  | (k, d) :: m, x, h => by
    simp only [convertF, Option.bind_eq_some_iff, Option.map_eq_some_iff] at h
    obtain ⟨y, hy, z, hz, rfl⟩ := h
    obtain ⟨h1, h2⟩ := dataF_convert m z hz
    refine ⟨by simp [Value.dataF, h1], fun i a b ha hb => ?_⟩
    cases i with
    | zero =>
      simp only [List.getElem?_cons_zero, Option.some.injEq, Value.dataF] at ha hb
      subst ha hb
      exact data_convert d y hy
    | succ i =>
      simp only [List.getElem?_cons_succ, Value.dataF] at ha hb
      exact h2 i a b ha hb
end

/-- **C75**: data turned into a value and read back with the methods is the same data, with all whole numbers of one Go type -/
theorem C75_converted (order : List Bytes → List Bytes) (ho : ∀ l, (order l).Perm l) (d : Val) (v : Value) (h : convertDecoded d = some v) (hm : v.MapsOK) :
    ∃ (n : Nat) (d' : Val), rebuild order n v = some d' ∧ AsInt d d' :=
  ⟨depth v.data + 1, v.data, C75_rebuild order ho _ v hm (Nat.lt_succ_self _), data_convert d v h⟩

example : rebuild List.reverse 3 (.object true [(b!"a", .array true [.integer 1, .string b!"x"]), (b!"b", .null true)]) =
    some (.obj [(b!"a", .arr [.gint 1, .str b!"x"]), (b!"b", .null)]) := by decide +kernel
example : ∃ v, convertDecoded (.obj [(b!"a", .arr [.int 1, .str b!"x"])]) = some v ∧ v.MapsOK := by
  refine ⟨_, rfl, ?_⟩
  exact ⟨by decide +kernel, ⟨trivial, trivial, trivial⟩, trivial⟩

/-- **C75**: a missing key gives no value, on which every method would be a nil dereference -/
theorem C75_missing (p : Bool) (m : List (Bytes × Value)) (order : List Bytes → List Bytes) (ho : ∀ l, (order l).Perm l) (k : Bytes) :
    (Value.object p m).mapIndex k = .ok none ↔ ∀ ks, (Value.object p m).keys order = .ok ks → k ∉ ks := by
  simp only [Value.mapIndex, Value.keys, Except.ok.injEq, forall_eq', map_get_none, (ho _).mem_iff, List.mem_map, not_exists, not_and]

/-! ### Text -/

/-- what can be told from the text of a value that is no string: its type, which boolean it is, and how many keys it has -/
def shown : Value → VType × Nat
  | .boolean b => (.boolean, if b then 1 else 0)
  | .object _ m => (.object, m.length)
  | v => (v.type, 0)

theorem object_text (p : Bool) (m : List (Bytes × Value)) : (Value.object p m).text =
    60 :: 111 :: (b!"bject " ++ (fmtNat m.length ++ b!" keys>")) := by
  simp only [Value.text, List.append_assoc]; rfl

/-- **C75**: `String` gives the contents of strings; of two other values it gives the same exactly if they have the same type
and are the same boolean or objects with the same number of keys -/
theorem C75_text (v w : Value) : (∀ s, v = .string s → v.text = s) ∧
    (v.type ≠ .string → w.type ≠ .string → (v.text = w.text ↔ shown v = shown w)) := by
  refine ⟨by rintro s rfl; rfl, fun hv hw => ?_⟩
  cases v <;> cases w <;> simp only [Value.type, ne_eq, not_true_eq_false, reduceCtorEq, not_false_eq_true] at hv hw
  case object.object p m q n =>
    simp only [shown, Prod.mk.injEq, true_and]
    constructor
    · intro h
      rw [object_text, object_text] at h
      simp only [List.cons.injEq, true_and, List.append_cancel_left_eq] at h
      exact Tabular.fmtNat_inj (List.append_cancel_right h)
    · intro h; rw [object_text, object_text, h]
  case boolean.boolean b c => cases b <;> cases c <;> simp [shown, Value.text]
  all_goals (first | (simp [shown, Value.text, VType.name, Value.type]; done) | (simp [object_text, shown, Value.text, VType.name, Value.type]; done) | skip)
  all_goals (intro h; cases h)

/-- so the text of a string may be that of another value -/
example : (Value.string b!"<array>").text = (Value.array true [.integer 1]).text := rfl

/-! ### Values with a key -/

/-- **C75**: for `Equal` the key of a value counts exactly for arrays and objects: other values are the same with any key or none,
while an array or an object with a key never equals one without -/
theorem C75_keyed_equal (a b : Value) (k j : Bytes) :
    (a.type ≠ .array → a.type ≠ .object →
      Keyed.equal (newObjectValue k (.plain a)) (newObjectValue j (.plain b)) = equal a b ∧
      Keyed.equal (newObjectValue k (.plain a)) (.plain b) = equal a b ∧ Keyed.equal (.plain a) (newObjectValue j (.plain b)) = equal a b) ∧
    (a.type = .array ∨ a.type = .object →
      (Keyed.equal (newObjectValue k (.plain a)) (newObjectValue j (.plain b)) = true ↔ k = j ∧ equal a b = true) ∧
      Keyed.equal (newObjectValue k (.plain a)) (.plain b) = false ∧ Keyed.equal (.plain a) (newObjectValue j (.plain b)) = false) := by
  cases a <;> cases b <;> simp [Keyed.equal, newObjectValue, Keyed.inner, Keyed.deepEqual, equal, Value.type]

/-- **C75**: without keys it is `Equal` -/
theorem C75_plain_equal (a b : Value) : Keyed.equal (.plain a) (.plain b) = equal a b := by
  cases a <;> cases b <;> simp [Keyed.equal, Keyed.inner, Keyed.deepEqual, equal, Value.type]

example : Keyed.equal (newObjectValue b!"k" (.plain (.array true []))) (.plain (.array true [])) = false ∧
    Keyed.equal (newObjectValue b!"k" (.plain (.integer 1))) (.plain (.integer 1)) = true := ⟨rfl, rfl⟩

/-! ### JSON text -/

/-- a value and what its JSON text is read as: numbers whose text has neither fraction nor exponent become integers, pointers
go away -/
inductive Reread (L : Lib) (F : FloatCodec) : Value → Value → Prop
  | null (b : Bool) : Reread L F (.null b) (.null true)
  | boolean (b : Bool) : Reread L F (.boolean b) (.boolean b)
  | integer (i : Int) (h : L.parse32 (fmtInt i) = true) : Reread L F (.integer i) (.integer i)
  | whole (x : UInt64) (i : Int) (h : L.parse32 (F.fmt x) = true) (hd : ∀ c ∈ F.fmt x, isDigit c = true ∨ c = 45) (hi : atoi (F.fmt x) = some i) :
      Reread L F (.number x) (.integer i)
  | number (x y : UInt64) (h : L.parse32 (F.fmt x) = true) (hd : ¬ ∀ c ∈ F.fmt x, isDigit c = true ∨ c = 45) (hw : wholePart (F.fmt x) < 2 ^ 64)
      (hy : L.parse64 (F.fmt x) = some y) : Reread L F (.number x) (.number y)
  | string (s : Bytes) : Reread L F (.string s) (.string (toValidUtf8 0 s))
  | array (p : Bool) (l m : List Value) (hl : l.length = m.length) (h : ∀ (i : Nat) (a b : Value), l[i]? = some a → m[i]? = some b → Reread L F a b) :
      Reread L F (.array p l) (.array false m)
  | object (p : Bool) (l m : List (Bytes × Value)) (hk : l.map (·.1) = m.map (·.1))
      (h : ∀ (i : Nat) (a b : Bytes × Value), l[i]? = some a → m[i]? = some b → Reread L F a.2 b.2) : Reread L F (.object p l) (.object false m)

mutual
/-- keys are in valid UTF-8 and sorted; whole numbers are in the range of `int` -/
def Value.KeysOK : Value → Prop
  | .integer i => IsInt64 i
  | .array _ l => Value.KeysOKL l
  | .object _ m => KeysSorted m ∧ Value.KeysOKF m
  | _ => True
def Value.KeysOKL : List Value → Prop
  | [] => True
  | v :: l => v.KeysOK ∧ Value.KeysOKL l
def Value.KeysOKF : List (Bytes × Value) → Prop
  | [] => True
  | (k, v) :: m => toValidUtf8 0 k = k ∧ v.KeysOK ∧ Value.KeysOKF m
end

theorem fmtInt_chars (i : Int) : ∀ c ∈ fmtInt i, isDigit c = true ∨ c = 45 := by
  intro c hc
  unfold fmtInt at hc
  split at hc
  · rcases List.mem_cons.1 hc with rfl | hc
    · exact .inr rfl
    · exact .inl (fmtNatF_digits _ _ c hc)
  · exact .inl (fmtNatF_digits _ _ c hc)

/-- what the text of a whole number is read as -/
theorem typedNum_int (L : Lib) (i : Int) (hi : IsInt64 i) (v : Value) : typedNum L (fmtInt i) = some v ↔ L.parse32 (fmtInt i) = true ∧ v = .integer i := by
  rw [typedNum, if_pos (fmtInt_chars i), atoi_fmtInt i hi]
  cases L.parse32 (fmtInt i)
  · simp
  · simp [eq_comm]

theorem typedF_keys (L : Lib) (F : FloatCodec) (m : List (Bytes × Value)) (h : Value.KeysOKF m) :
    (typedF L (treeOfF F (Value.dataF m))).map (·.1) = m.map (·.1) := by
  induction m with
  | nil => rfl
  | cons x m ih =>
    obtain ⟨k, v⟩ := x
    obtain ⟨h1, _, h3⟩ := h
    simp only [Value.dataF, treeOfF, typedF, List.map_cons, unquote_esc, h1, ih h3]

theorem typedF_sorted (L : Lib) (F : FloatCodec) (m : List (Bytes × Value)) (hs : KeysSorted m) (h : Value.KeysOKF m) :
    KeysSorted (typedF L (treeOfF F (Value.dataF m))) := by
  have hk := typedF_keys L F m h
  have h1 : (m.map (·.1)).Pairwise fun a b => bytesLt a b = true := List.pairwise_map.2 hs
  rw [← hk] at h1
  exact List.pairwise_map.1 h1

mutual
theorem typed_data (L : Lib) (F : FloatCodec) : ∀ (v w : Value), v.KeysOK → (typed L (treeOf F v.data) = some w ↔ Reread L F v w)
  | .null b, w, _ => by
    simp only [Value.data, treeOf, typed, Option.some.injEq]
    exact ⟨by rintro rfl; exact .null b, by rintro ⟨⟩; rfl⟩
  | .boolean b, w, _ => by
    simp only [Value.data, treeOf, typed, Option.some.injEq]
    exact ⟨by rintro rfl; exact .boolean b, by rintro ⟨⟩; rfl⟩
  | .integer i, w, hi => by
    simp only [Value.data, treeOf, typed, typedNum_int L i hi]
    exact ⟨by rintro ⟨h1, rfl⟩; exact .integer i h1, by rintro ⟨⟩; rename_i h1; exact ⟨h1, rfl⟩⟩
  | .number x, w, _ => by
    simp only [Value.data, treeOf, typed, typedNum]
    constructor
    · intro h
      split at h
      · cases h
      · rename_i h1
        have h1 : L.parse32 (F.fmt x) = true := by simpa using h1
        split at h
        · rename_i h2
          obtain ⟨i, hi, rfl⟩ := Option.map_eq_some_iff.1 h
          exact .whole x i h1 h2 hi
        · rename_i h2
          split at h
          · cases h
          · rename_i h3
            obtain ⟨y, hy, rfl⟩ := Option.map_eq_some_iff.1 h
            exact .number x y h1 h2 (by omega) hy
    · rintro ⟨⟩
      · rename_i i h hd hi
        rw [if_neg (by simp [h]), if_pos hd, hi]; rfl
      · rename_i y h hd hw hy
        rw [if_neg (by simp [h]), if_neg hd, if_neg (by omega), hy]; rfl
  | .string s, w, _ => by
    simp only [Value.data, treeOf, typed, Option.some.injEq, unquote_esc]
    exact ⟨by rintro rfl; exact .string s, by rintro ⟨⟩; rfl⟩
  | .array p l, w, h => by
    simp only [Value.data, treeOf, typed, Option.map_eq_some_iff]
    constructor
    · rintro ⟨m, hm, rfl⟩
      obtain ⟨h1, h2⟩ := (typedL_data L F l m h).1 hm
      exact .array p l m h1 h2
    · rintro ⟨⟩
      rename_i m h1 h2
      exact ⟨m, (typedL_data L F l m h).2 ⟨h1, h2⟩, rfl⟩
  | .object p l, w, h => by
    have hk : mapOf (typedF L (treeOfF F (Value.dataF l))) = typedF L (treeOfF F (Value.dataF l)) := by
      apply Json.mapOf_sorted
      exact typedF_sorted L F l h.1 h.2
    simp only [Value.data, treeOf, typed, Option.map_eq_some_iff, hk]
    constructor
    · rintro ⟨m, hm, rfl⟩
      obtain ⟨h1, h2⟩ := (typedF_data L F l m h.2).1 hm
      exact .object p l m h1 h2
    · rintro ⟨⟩
      rename_i m h1 h2
      exact ⟨m, (typedF_data L F l m h.2).2 ⟨h1, h2⟩, rfl⟩
theorem typedL_data (L : Lib) (F : FloatCodec) : ∀ (l m : List Value), Value.KeysOKL l → (typedL L (treeOfL F (Value.dataL l)) = some m ↔
    l.length = m.length ∧ ∀ (i : Nat) (a b : Value), l[i]? = some a → m[i]? = some b → Reread L F a b)
  | [], m, _ => by
    simp only [Value.dataL, treeOfL, typedL, Option.some.injEq]
    constructor
    · rintro rfl; exact ⟨rfl, fun i a b h => by simp at h⟩
    · rintro ⟨h, _⟩; exact (List.length_eq_zero_iff.1 h.symm).symm
  | v :: l, m, h => by
    simp only [Value.dataL, treeOfL, typedL, Option.bind_eq_some_iff, Option.map_eq_some_iff]
    constructor
    · rintro ⟨x, hx, y, hy, rfl⟩
      obtain ⟨h1, h2⟩ := (typedL_data L F l y h.2).1 hy
      refine ⟨by simp [h1], fun i a b ha hb => ?_⟩
      cases i with
      | zero =>
        simp only [List.getElem?_cons_zero, Option.some.injEq] at ha hb
        subst ha hb
        exact (typed_data L F v x h.1).1 hx
      | succ i => exact h2 i a b (by simpa using ha) (by simpa using hb)
    · rintro ⟨h1, h2⟩
      cases m with
      | nil => simp at h1
      | cons x y =>
        refine ⟨x, (typed_data L F v x h.1).2 (h2 0 v x rfl rfl), y, (typedL_data L F l y h.2).2 ⟨by simpa using h1, fun i a b ha hb => ?_⟩, rfl⟩
        exact h2 (i + 1) a b (by simpa using ha) (by simpa using hb)
theorem typedF_data (L : Lib) (F : FloatCodec) : ∀ (l m : List (Bytes × Value)), Value.KeysOKF l → (allOf (typedF L (treeOfF F (Value.dataF l))) = some m ↔
    l.map (·.1) = m.map (·.1) ∧ ∀ (i : Nat) (a b : Bytes × Value), l[i]? = some a → m[i]? = some b → Reread L F a.2 b.2)
  | [], m, _ => by
    simp only [Value.dataF, treeOfF, typedF, allOf, Option.some.injEq]
    constructor
    · rintro rfl; exact ⟨rfl, fun i a b h => by simp at h⟩
    · rintro ⟨h, _⟩; exact (List.map_eq_nil_iff.1 h.symm).symm
  | (k, v) :: l, m, h => by
    simp only [Value.dataF, treeOfF, typedF, allOf, Option.bind_eq_some_iff, Option.map_eq_some_iff, unquote_esc, h.1]
    constructor
    · rintro ⟨x, hx, y, hy, rfl⟩
      obtain ⟨h1, h2⟩ := (typedF_data L F l y h.2.2).1 hy
      refine ⟨by simp [h1], fun i a b ha hb => ?_⟩
      cases i with
      | zero =>
        simp only [List.getElem?_cons_zero, Option.some.injEq] at ha hb
        subst ha hb
        exact (typed_data L F v x h.2.1).1 hx
      | succ i => exact h2 i a b (by simpa using ha) (by simpa using hb)
    · rintro ⟨h1, h2⟩
      cases m with
      | nil => simp at h1
      | cons x y =>
        obtain ⟨k', x⟩ := x
        simp only [List.map_cons, List.cons.injEq] at h1
        obtain ⟨rfl, h1⟩ := h1
        refine ⟨x, (typed_data L F v x h.2.1).2 (h2 0 (k, v) (k, x) rfl rfl), y, (typedF_data L F l y h.2.2).2 ⟨h1, fun i a b ha hb => ?_⟩, rfl⟩
        exact h2 (i + 1) a b (by simpa using ha) (by simpa using hb)
end

/-- **C75**: a value has a JSON text exactly if there are no infinities and NaNs in it, and `UnmarshalJSON` reads this text exactly as
`Reread` says; floats are taken to be printed as JSON numbers -/
theorem C75_json (L : Lib) (hL : NoSpaces L) (F : FloatCodec) (v : Value) (hk : v.KeysOK) (hn : NumsOK F v.data) (hd : depth v.data ≤ 10000) :
    (v.marshal F ≠ none ↔ jsonOK v.data = true) ∧
    ∀ t, v.marshal F = some t → ∀ w, unmarshalJSON L t = some w ↔ Reread L F v w := by
  constructor
  · unfold Value.marshal; split <;> simp [*]
  · intro t ht w
    unfold Value.marshal at ht
    split at ht
    · simp only [Option.some.injEq] at ht
      subst ht
      have h := C70_text L hL [] (enc F v.data) [] (treeOf F v.data) ws_nil (spells_enc F v.data hn) ws_nil (by rw [depth_treeOf]; exact hd)
      simp only [List.nil_append, List.append_nil] at h
      rw [h, typedTop_alone]
      exact typed_data L F v w hk
    · cases ht

/-- values without numbers, pointers, and strings of invalid UTF-8 come back -/
example (L : Lib) (F : FloatCodec) : Reread L F (.array false [.boolean true, .string b!"x", .null true]) (.array false [.boolean true, .string b!"x", .null true]) := by
  refine .array _ _ _ rfl fun i a b ha hb => ?_
  rw [ha] at hb
  obtain rfl := Option.some.inj hb
  have := List.mem_of_getElem? ha
  simp only [List.mem_cons, List.not_mem_nil, or_false] at this
  rcases this with rfl | rfl | rfl
  · exact .boolean true
  · have := Reread.string (L := L) (F := F) b!"x"
    exact this
  · exact .null true

/-- a float that prints without a fraction comes back as an integer, for which `Equal` no longer holds -/
theorem C75_kind_lost (L : Lib) (hL : NoSpaces L) (F : FloatCodec) (x : UInt64) (h32 : L.parse32 b!"1" = true) (hx : floatFinite x = true) (hf : F.fmt x = b!"1") :
    ∃ t w, (Value.number x).marshal F = some t ∧ unmarshalJSON L t = some w ∧ equal (.number x) w = false := by
  refine ⟨b!"1", .integer 1, ?_, ?_, rfl⟩
  · simp [Value.marshal, Value.data, jsonOK, enc, hx, hf]
  · have := C70_integers L hL 1 (by decide) h32
    exact this

example : ∃ t w, (Value.number 0x3FF0000000000000).marshal ⟨fun _ => b!"1", fun _ => none⟩ = some t ∧ unmarshalJSON exLib t = some w ∧
    equal (.number 0x3FF0000000000000) w = false :=
  C75_kind_lost exLib exLib_noSpaces _ _ rfl (by decide +kernel) rfl

end Verif.Vals
