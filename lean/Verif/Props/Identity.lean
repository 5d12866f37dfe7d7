import Verif.Model.Identity
/-
C15: the in-memory reader under every schedule.
-/
set_option autoImplicit false
namespace Verif.Identity

/-- entries among the results -/
def entries : List Ret → List Entry
  | [] => []
  | .entry e :: r => e :: entries r
  | _ :: r => entries r

theorem entries_append (a b : List Ret) : entries (a ++ b) = entries a ++ entries b := by
  induction a with
  | nil => rfl
  | cons x a ih => cases x <;> simp [entries, ih]

/-- entries the producer still holds -/
def Prod.left : Prod → List Entry
  | .looping es => es
  | .ended => []

/-- the consumer is inside Close -/
def Cons.closing : Cons → Bool
  | .closeCheck => true
  | .closeLoop => true
  | .closeRecv => true
  | _ => false

/-! ### safety -/

theorem step_sublist {st : Bool} {es : List Entry} {a b : St} (k : Step st a b)
    (h : (entries a.rets ++ a.prod.left).Sublist es) : (entries b.rets ++ b.prod.left).Sublist es := by
  cases k <;> simp_all [entries_append, entries, Prod.left]
  rename_i e es' s r
  exact (List.Sublist.append_left (List.sublist_cons_self e es') _).trans h

theorem sublist_inv {st : Bool} {n : Nat} {es : List Entry} {script : List Call} {s : St}
    (h : Steps st n (start es script) s) : (entries s.rets ++ s.prod.left).Sublist es := by
  generalize ha : start es script = a at h
  induction h with
  | refl a => subst ha; simp [start, entries, Prod.left]
  | tail h k ih => exact step_sublist k (ih ha)

/-- invariant of executions: the calls made and the consumer's place agree with the script, entries
are handed out in order while Close was not called, and an end was only reported at the end -/
structure Inv (es : List Entry) (script : List Call) (s : St) : Prop where
  before : .close ∉ script → s.cons.closing = false ∧ .close ∉ s.script ∧ Ret.closed ∉ s.rets ∧ entries s.rets ++ s.prod.left = es
  eof : Ret.eof ∈ s.rets ∨ Ret.closed ∈ s.rets → s.prod = .ended
  count : s.rets.length + s.script.length + (if s.cons = .idle then 0 else 1) = script.length

theorem inv {st : Bool} {n : Nat} {es : List Entry} {script : List Call} {s : St}
    (h : Steps st n (start es script) s) : Inv es script s := by
  generalize ha : start es script = a at h
  induction h with
  | refl a => subst ha; constructor <;> simp [start, entries, Prod.left, Cons.closing]
  | tail h k ih =>
    have ⟨i1, i2, i3⟩ := ih ha
    constructor
    · intro hc
      have j := i1 hc
      cases k <;> simp_all [entries_append, entries, Prod.left, Cons.closing]
    · intro hc
      cases k <;> simp_all
    · cases k <;> simp_all <;> omega

/-- Under every schedule the entries `ReadEntry` returned, followed by those still in the producer,
are in the container's order, none twice. -/
theorem C15_in_order {st : Bool} {n : Nat} {es : List Entry} {script : List Call} {s : St}
    (h : Steps st n (start es script) s) :
    (entries s.rets).Sublist es ∧ (entries s.rets ++ s.prod.left).Sublist es :=
  ⟨(List.sublist_append_left _ _).trans (sublist_inv h), sublist_inv h⟩

/-- A consumer that does not call Close gets a prefix of the entries, in order: nothing is lost. -/
theorem C15_prefix {st : Bool} {n : Nat} {es : List Entry} {script : List Call} {s : St}
    (hc : .close ∉ script) (h : Steps st n (start es script) s) :
    entries s.rets ++ s.prod.left = es := ((inv h).before hc).2.2.2

/-- The first results are entries: with `k` results and no Close, either the first `k` entries were
returned, or all of them followed by ends of file only. -/
theorem C15_results {st : Bool} {n : Nat} {es : List Entry} {script : List Call} {s : St}
    (hc : .close ∉ script) (h : Steps st n (start es script) s) :
    ∃ k m, s.rets = (es.take k).map .entry ++ List.replicate m .eof ∧ (m ≠ 0 → es.length ≤ k) := by
  generalize ha : start es script = a at h
  induction h with
  | refl a => subst ha; exact ⟨0, 0, by simp [start], by simp⟩
  | tail h k ih =>
    subst ha
    obtain ⟨i, m, e, hm⟩ := ih rfl
    have hp := C15_prefix hc h
    have hb := (inv h).before hc
    have heof := (inv h).eof
    have hlen : ∀ i m, entries ((es.take i).map Ret.entry ++ List.replicate m Ret.eof) = es.take i := by
      intro i m
      rw [entries_append]
      have a1 : ∀ l : List Entry, entries (l.map Ret.entry) = l := by
        intro l; induction l with | nil => rfl | cons x l ih => simp [entries, ih]
      have a2 : ∀ m, entries (List.replicate m Ret.eof) = [] := by
        intro m; induction m with | zero => rfl | succ m ih => simp [List.replicate_succ, entries, ih]
      rw [a1, a2, List.append_nil]
    have e' := hlen i m
    cases k with
    | readDone s r =>
      simp only at e hp
      refine ⟨es.length, m + 1, ?_, fun _ => Nat.le_refl _⟩
      simp only [Prod.left, List.append_nil, e, e'] at hp
      simp only
      rw [e, hp, List.take_length, List.replicate_succ', List.append_assoc]
    | readTake x xs s r =>
      simp only at e hp heof
      have hm0 : m = 0 := by
        cases m with
        | zero => rfl
        | succ m => exact absurd (heof (.inl (by simp [e]))) (by simp)
      subst hm0
      simp only [Prod.left, e, e', List.replicate_zero, List.append_nil] at hp e' ⊢
      refine ⟨(es.take i).length + 1, 0, ?_, by simp⟩
      have : es.take ((es.take i).length + 1) = es.take i ++ [x] := by
        have hp' : (es.take i ++ [x]) ++ xs = es := by rw [e'] at hp; simpa using hp
        have := List.take_left' (l₁ := es.take i ++ [x]) (l₂ := xs) (i := (es.take i).length + 1) (by simp)
        rwa [hp'] at this
      rw [this]
      simp
    | _ => first
      | exact ⟨i, m, e, hm⟩
      | (exfalso; simp [Cons.closing] at hb)

/-- End of file and a completed Close come only after every entry was handed over. -/
theorem C15_eof_after_all {st : Bool} {n : Nat} {es : List Entry} {script : List Call} {s : St}
    (h : Steps st n (start es script) s) (he : Ret.eof ∈ s.rets ∨ Ret.closed ∈ s.rets) :
    s.prod = .ended ∧ (.close ∉ script → entries s.rets = es) := by
  refine ⟨(inv h).eof he, fun hc => ?_⟩
  have := C15_prefix hc h
  simpa [(inv h).eof he, Prod.left] using this

/-- Arrays are delivered with ascending numbers. -/
theorem C15_array {st : Bool} {n : Nat} {l : List Val} {es : List Entry} {script : List Call} {s : St}
    (hv : Iterates (.arr l) es) (h : Steps st n (start es script) s) (hc : .close ∉ script) (he : Ret.eof ∈ s.rets) :
    entries s.rets = Json.indexed 0 l := by
  rw [(C15_eof_after_all h (.inl he)).2 hc]
  cases hv
  rfl

/-- Of a map every member is delivered exactly once. -/
theorem C15_map {st : Bool} {n : Nat} {m : List (Bytes × Val)} {es : List Entry} {script : List Call} {s : St}
    (hv : Iterates (.obj m) es) (h : Steps st n (start es script) s) (hc : .close ∉ script) (he : Ret.eof ∈ s.rets) :
    (entries s.rets).Perm (m.map fun kv => { key := kv.1, value := kv.2 }) := by
  rw [(C15_eof_after_all h (.inl he)).2 hc]
  cases hv
  assumption

/-- Only arrays and maps are accepted. -/
theorem C15_accepts (v : Val) : (∃ es, Iterates v es) ↔ (∃ l, v = .arr l) ∨ ∃ m, v = .obj m := by
  constructor
  · rintro ⟨es, h⟩
    cases h
    · exact .inl ⟨_, rfl⟩
    · exact .inr ⟨_, rfl⟩
  · rintro (⟨l, rfl⟩ | ⟨m, rfl⟩)
    · exact ⟨_, .slice l⟩
    · exact ⟨_, .map m _ (.refl _)⟩

/-! ### progress -/

/-- Nobody can be stuck unless the producer is through: then, and only then, a consumer waiting at
the channel waits for ever. -/
theorem C15_stuck_iff {st : Bool} (s : St) :
    Stuck st s ↔ s.prod = .ended ∧ (s.cons = .readRecv ∨ s.cons = .closeRecv) := by
  obtain ⟨p, c, sc, r⟩ := s
  constructor
  · rintro ⟨hc, h⟩
    cases p with
    | looping es =>
      exfalso
      cases es with
      | nil => exact h _ (.finish c sc r)
      | cons e es =>
        cases c with
        | idle => exact hc rfl
        | readCheck => exact h _ (.readGo _ sc r (.inl (by simp)))
        | readRecv => exact h _ (.readTake e es sc r)
        | closeCheck => exact h _ (.closeGo _ sc r (.inl (by simp)))
        | closeLoop => exact h _ (.loopGo _ sc r (.inl (by simp)))
        | closeRecv => exact h _ (.closeTake e es sc r)
    | ended =>
      refine ⟨rfl, ?_⟩
      cases c with
      | idle => exact absurd rfl hc
      | readCheck => exact absurd (.readDone sc r) (h _)
      | readRecv => exact .inl rfl
      | closeCheck => exact absurd (.closeDone sc r) (h _)
      | closeLoop => exact absurd (.loopDone sc r) (h _)
      | closeRecv => exact .inr rfl
  · rintro ⟨hp, hc⟩
    simp only at hp hc
    subst hp
    rcases hc with rfl | rfl <;> exact ⟨by simp, fun t k => by cases k⟩

/-- Reads of at most as many entries as there are never hang: as long as an entry is left some step
is possible. -/
theorem C15_no_hang_before_end {st : Bool} {n : Nat} {es : List Entry} {script : List Call} {s : St}
    (hc : .close ∉ script) (hl : script.length ≤ es.length) (h : Steps st n (start es script) s) : ¬ Stuck st s := by
  intro hs
  obtain ⟨hp, hr⟩ := (C15_stuck_iff s).mp hs
  have e1 := C15_prefix hc h
  have e2 := (inv h).count
  have e3 : (entries s.rets).length ≤ s.rets.length := by
    generalize s.rets = r
    induction r with
    | nil => simp [entries]
    | cons x r ih => cases x <;> simp [entries] <;> omega
  rw [hp] at e1
  simp only [Prod.left, List.append_nil] at e1
  rw [e1] at e3
  have : s.cons ≠ .idle := by rcases hr with h | h <;> simp [h]
  rw [if_neg this] at e2
  omega

/-- what is left to do: bounds every execution -/
def work (s : St) : Nat :=
  (match s.prod with | .looping es => 3 * es.length + 1 | .ended => 0) + 4 * s.script.length +
  (match s.cons with | .idle => 0 | .readCheck => 2 | .readRecv => 1 | .closeCheck => 3 | .closeLoop => 2 | .closeRecv => 1)

theorem step_work {st : Bool} {a b : St} (k : Step st a b) : work b < work a := by
  cases k <;> simp [work] <;> omega

/-- Executions are finite: there is no livelock; a bound follows from the number of entries and
calls. -/
theorem C15_finite {st : Bool} {n : Nat} {es : List Entry} {script : List Call} {s : St}
    (h : Steps st n (start es script) s) : n ≤ 3 * es.length + 4 * script.length + 1 := by
  have key : ∀ {n a b}, Steps st n a b → n + work b ≤ work a := by
    intro n a b h
    induction h with
    | refl => simp
    | tail h k ih => have := step_work k; omega
  have := key h
  simp only [start, work] at this
  omega

/-- So every schedule run to its end completes all calls or hangs after the last entry. -/
theorem C15_outcome {st : Bool} {n : Nat} {es : List Entry} {script : List Call} {s : St}
    (h : Steps st n (start es script) s) (hend : ∀ t, ¬ Step st s t) :
    (s.script = [] ∧ s.cons = .idle ∧ s.rets.length = script.length) ∨ Stuck st s := by
  by_cases hc : s.cons = .idle
  · left
    have e2 := (inv h).count
    obtain ⟨p, c, sc, r⟩ := s
    simp only at hc
    subst hc
    cases sc with
    | nil => exact ⟨rfl, rfl, by simpa using e2⟩
    | cons x sc =>
      cases x with
      | read => exact absurd (.callRead p sc r) (hend _)
      | close => exact absurd (.callClose p sc r) (hend _)
  · exact .inr ⟨hc, hend⟩

/-! ### hangs -/

theorem Steps.trans {st : Bool} {n m : Nat} {a b c : St} (h : Steps st n a b) (k : Steps st m b c) : Steps st (n + m) a c := by
  induction k with
  | refl => exact h
  | tail _ k ih => exact .tail (ih h) k

theorem reads {st : Bool} (es : List Entry) (sc : List Call) (r : List Ret) :
    Steps st (3 * es.length) ⟨.looping es, .idle, List.replicate es.length .read ++ sc, r⟩ ⟨.looping [], .idle, sc, r ++ es.map .entry⟩ := by
  induction es generalizing r with
  | nil => simpa using Steps.refl _
  | cons e es ih =>
    have one : Steps st 3 ⟨.looping (e :: es), .idle, List.replicate (e :: es).length .read ++ sc, r⟩ ⟨.looping es, .idle, List.replicate es.length .read ++ sc, r ++ [.entry e]⟩ :=
      .tail (.tail (.tail (.refl _) (.callRead _ _ _)) (.readGo _ _ _ (.inl (by simp)))) (.readTake e es _ _)
    have := one.trans (ih (r ++ [.entry e]))
    simpa [List.length_cons, Nat.mul_add, Nat.add_comm] using this

/-- Reading to the end can hang, for every container and even with sequentially consistent memory: the
read after the last entry looks at `done` before the producer sets it. -/
theorem C15_read_can_hang (es : List Entry) :
    ∃ n s, Steps false n (start es (List.replicate (es.length + 1) .read)) s ∧ s.rets = es.map .entry ∧ s.cons = .readRecv ∧ Stuck false s := by
  have h := reads (st := false) es [.read] []
  refine ⟨3 * es.length + 3, ⟨.ended, .readRecv, [], es.map .entry⟩, ?_, rfl, rfl, (C15_stuck_iff _).mpr ⟨rfl, .inl rfl⟩⟩
  rw [List.replicate_succ']
  exact .tail (.tail (.tail h (.callRead _ _ _)) (.readGo _ _ _ (.inl (by simp)))) (.finish _ _ _)

/-- So can Close, called at any time: here after all entries were read. -/
theorem C15_close_can_hang (es : List Entry) :
    ∃ n s, Steps false n (start es (List.replicate es.length .read ++ [.close])) s ∧ s.rets = es.map .entry ∧ s.cons = .closeRecv ∧ Stuck false s := by
  have h := reads (st := false) es [.close] []
  exact ⟨_, ⟨.ended, .closeRecv, [], es.map .entry⟩,
    .tail (.tail (.tail (.tail h (.callClose _ _ _)) (.closeGo _ _ _ (.inl (by simp)))) (.loopGo _ _ _ (.inl (by simp)))) (.finish _ _ _),
    rfl, rfl, (C15_stuck_iff _).mpr ⟨rfl, .inr rfl⟩⟩

/-- Another schedule of the same calls completes them. -/
theorem C15_read_can_complete (es : List Entry) :
    ∃ n s, Steps false n (start es (List.replicate (es.length + 1) .read)) s ∧ s.rets = es.map .entry ++ [.eof] ∧ s.cons = .idle ∧ s.script = [] := by
  have h := reads (st := false) es [.read] []
  refine ⟨3 * es.length + 3, ⟨.ended, .idle, [], es.map .entry ++ [.eof]⟩, ?_, rfl, rfl, rfl⟩
  rw [List.replicate_succ']
  exact .tail (.tail (.tail h (.finish _ _ _)) (.callRead _ _ _)) (.readDone _ _)

/-- With sequentially consistent memory, once `done` is set before a call begins the call returns: no
call started then hangs. -/
theorem C15_after_done {s t : St} {n : Nat} (hp : s.prod = .ended) (hc : s.cons = .idle) (h : Steps false n s t) : ¬ Stuck false t := by
  have key : t.prod = .ended ∧ t.cons ≠ .readRecv ∧ t.cons ≠ .closeRecv := by
    induction h with
    | refl => exact ⟨hp, by simp [hc], by simp [hc]⟩
    | tail h k ih =>
      have := ih hp hc
      cases k <;> simp_all
  intro hs
  rcases ((C15_stuck_iff t).mp hs).2 with h | h
  · exact key.2.1 h
  · exact key.2.2 h

/-- With stale reads of `done` even that is not so. -/
theorem C15_after_done_stale_witness : ∃ s t n, s.prod = .ended ∧ s.cons = .idle ∧ Steps true n s t ∧ Stuck true t :=
  ⟨⟨.ended, .idle, [.read], []⟩, ⟨.ended, .readRecv, [], []⟩, 2, rfl, rfl,
    .tail (.tail (.refl _) (.callRead _ _ _)) (.readGo _ _ _ (.inr rfl)), (C15_stuck_iff _).mpr ⟨rfl, .inl rfl⟩⟩

/-! a concrete container: two values, read three times -/
example : ∃ n s, Steps false n (start (Json.indexed 0 [.bool true, .null]) [.read, .read, .read]) s ∧
    s.rets = [.entry { index := 0, value := .bool true }, .entry { index := 1, value := .null }, .eof] ∧ s.cons = .idle := by
  obtain ⟨n, s, h, e, c, _⟩ := C15_read_can_complete (Json.indexed 0 [.bool true, .null])
  exact ⟨n, s, h, e, c⟩
example : ∃ n s, Steps false n (start (Json.indexed 0 [.bool true, .null]) [.read, .read, .read]) s ∧ Stuck false s := by
  obtain ⟨n, s, h, _, _, c⟩ := C15_read_can_hang (Json.indexed 0 [.bool true, .null])
  exact ⟨n, s, h, c⟩
/-! reading nothing and closing right away can hang as well -/
example : ∃ n s, Steps false n (start [] [.close]) s ∧ Stuck false s := by
  obtain ⟨n, s, h, _, _, c⟩ := C15_close_can_hang (Json.indexed 0 [])
  exact ⟨n, s, h, c⟩

end Verif.Identity
