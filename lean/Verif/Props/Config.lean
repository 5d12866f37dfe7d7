import Verif.Model.Config
/-
C45 (format options), C37 (step files), C39 (names).
-/
set_option autoImplicit false
namespace Verif.Config
open Names

/-! ### C39 -/

/-- an ASCII letter, by its code -/
def AsciiLetter (c : UInt8) : Prop := (0x41 ≤ c.toNat ∧ c.toNat ≤ 0x5A) ∨ (0x61 ≤ c.toNat ∧ c.toNat ≤ 0x7A)
/-- an ASCII letter, digit or underscore, by its code -/
def AsciiWord (c : UInt8) : Prop := AsciiLetter c ∨ (0x30 ≤ c.toNat ∧ c.toNat ≤ 0x39) ∨ c.toNat = 0x5F

theorem isLetter_iff (c : UInt8) : isLetter c = true ↔ AsciiLetter c := by
  simp only [isLetter, AsciiLetter, Bool.or_eq_true, Bool.and_eq_true, decide_eq_true_eq, UInt8.le_iff_toNat_le]
  simp only [UInt8.reduceToNat]
  omega

theorem isWord_iff (c : UInt8) : isWord c = true ↔ AsciiWord c := by
  simp only [isWord, AsciiWord, Bool.or_eq_true, Bool.and_eq_true, decide_eq_true_eq, isLetter_iff, UInt8.le_iff_toNat_le, beq_iff_eq, ← UInt8.toNat_inj]
  simp only [UInt8.reduceToNat, or_assoc]

/-- **C39**: a name is valid iff it is an ASCII letter followed by at most 143 ASCII letters, digits or underscores. -/
theorem C39_valid_name (s : Bytes) :
    validName s = true ↔ ∃ c t, s = c :: t ∧ AsciiLetter c ∧ t.length ≤ 143 ∧ ∀ b ∈ t, AsciiWord b := by
  unfold validName alphaNumericRegex
  cases s with
  | nil => simp
  | cons c t =>
    rw [if_neg (by simp), full_head_upTo]
    simp only [isLetter_iff, isWord_iff]

/-- so a valid name has between 1 and 144 bytes, none of them outside ASCII, a space, a slash or a newline -/
theorem C39_consequences (s : Bytes) (h : validName s = true) : 1 ≤ s.length ∧ s.length ≤ 144 ∧ ∀ b ∈ s, b.toNat < 128 ∧ b ≠ 32 ∧ b ≠ 47 ∧ b ≠ 10 := by
  obtain ⟨c, t, rfl, hc, ht, hb⟩ := (C39_valid_name s).1 h
  refine ⟨by simp, by simp; omega, ?_⟩
  intro b hm
  have hw : AsciiWord b := by
    rcases List.mem_cons.1 hm with rfl | hm
    · exact Or.inl hc
    · exact hb b hm
  have hn : b.toNat < 128 ∧ b.toNat ≠ 32 ∧ b.toNat ≠ 47 ∧ b.toNat ≠ 10 := by
    unfold AsciiWord AsciiLetter at hw; omega
  refine ⟨hn.1, ?_, ?_, ?_⟩ <;> rintro rfl <;> simp at hn

example : validName b!"world_bank_2019" = true ∧ validName b!"2019_bank" = false ∧ validName b!"a-b" = false ∧ validName b!"abc\n" = false := by
  decide +kernel
/-- the limit is met exactly -/
example : validName (97 :: List.replicate 143 98) = true ∧ validName (97 :: List.replicate 144 98) = false := by decide +kernel

/-! ### C37 -/

/-- a text put together from pieces with the separator line between them -/
def joined : List Bytes → Bytes
  | [] => []
  | [a] => a
  | a :: b :: l => a ++ sep ++ joined (b :: l)

theorem isPrefixOf_iff (a b : Bytes) : a.isPrefixOf b = true ↔ ∃ r, b = a ++ r := by
  rw [List.isPrefixOf_iff_prefix]
  constructor
  · rintro ⟨r, h⟩; exact ⟨r, h.symm⟩
  · rintro ⟨r, h⟩; exact ⟨r, h.symm⟩

theorem splitAux_ne (sp : Bytes) (f : Nat) (s cur : Bytes) : splitAux sp f s cur ≠ [] := by
  induction f generalizing s cur with
  | zero => cases s <;> simp [splitAux]
  | succ f ih =>
    cases s with
    | nil => simp [splitAux]
    | cons c s =>
      simp only [splitAux]
      split
      · simp
      · exact ih _ _

theorem joined_cons (a : Bytes) (l : List Bytes) (h : l ≠ []) : joined (a :: l) = a ++ sep ++ joined l := by
  cases l with
  | nil => exact absurd rfl h
  | cons b l => rfl

theorem sep_rest (c : UInt8) (s r : Bytes) (h : c :: s = sep ++ r) : r.length + 5 = s.length + 1 := by
  have := congrArg List.length h
  simp only [List.length_cons, List.length_append, sep, List.length_nil] at this
  omega

theorem splitAux_joined (f : Nat) (s cur : Bytes) (h : s.length ≤ f) : joined (splitAux sep f s cur) = cur.reverse ++ s := by
  induction f generalizing s cur with
  | zero =>
    obtain rfl : s = [] := by cases s <;> simp_all
    simp [splitAux, joined]
  | succ f ih =>
    cases s with
    | nil => simp [splitAux, joined]
    | cons c s =>
      simp only [splitAux]
      split
      · rename_i hp
        obtain ⟨r, hr⟩ := (isPrefixOf_iff _ _).1 hp
        have hl := sep_rest c s r hr
        simp only [List.length_cons] at h
        rw [show (c :: s).drop sep.length = r by rw [hr]; simp, joined_cons _ _ (splitAux_ne _ _ _ _), ih r [] (by omega), hr]
        simp
      · rw [ih s (c :: cur) (by simp at h; omega)]
        simp

/-- reading any text and writing the steps gives the text -/
theorem split_joined (s : Bytes) : joined (split sep s) = s := by
  have := splitAux_joined s.length s [] (Nat.le_refl _)
  simpa [split] using this

/-- the separator begins at no place of `s` before `n` -/
def NoneBefore (s : Bytes) (n : Nat) : Prop := ∀ k < n, ¬ ∃ r, s.drop k = sep ++ r

theorem splitAux_fuel (f g : Nat) (s cur : Bytes) (hf : s.length ≤ f) (hg : s.length ≤ g) : splitAux sep f s cur = splitAux sep g s cur := by
  induction f generalizing g s cur with
  | zero =>
    obtain rfl : s = [] := by cases s <;> simp_all
    cases g <;> simp [splitAux]
  | succ f ih =>
    cases s with
    | nil => cases g <;> simp [splitAux]
    | cons c s =>
      cases g with
      | zero => simp at hg
      | succ g =>
        simp only [List.length_cons] at hf hg
        simp only [splitAux]
        split
        · rename_i hp
          obtain ⟨r, hr⟩ := (isPrefixOf_iff _ _).1 hp
          have hl := sep_rest c s r hr
          rw [show (c :: s).drop sep.length = r by rw [hr]; simp, ih g r [] (by omega) (by omega)]
        · exact ih g s _ (by omega) (by omega)

/-- the first separator found is where the text is cut -/
theorem splitAux_cut (f : Nat) (a r cur : Bytes) (h : (a ++ sep ++ r).length ≤ f) (hn : NoneBefore (a ++ sep ++ r) a.length) :
    splitAux sep f (a ++ sep ++ r) cur = (cur.reverse ++ a) :: splitAux sep f r [] := by
  induction a generalizing f cur with
  | nil =>
    cases f with
    | zero => simp [sep] at h
    | succ f =>
      rw [show ([] : Bytes) ++ sep ++ r = 10 :: (b!"---\n" ++ r) from rfl] at h ⊢
      simp only [splitAux]
      rw [if_pos ((isPrefixOf_iff sep (10 :: (b!"---\n" ++ r))).2 ⟨r, rfl⟩)]
      simp only [List.append_nil]
      have hl : r.length ≤ f := by simp at h; omega
      rw [show (10 :: (b!"---\n" ++ r)).drop sep.length = r from rfl, splitAux_fuel f (f + 1) r [] hl (by omega)]
  | cons c a ih =>
    cases f with
    | zero => simp at h
    | succ f =>
      simp only [List.cons_append] at h hn ⊢
      have hc : sep.isPrefixOf (c :: (a ++ sep ++ r)) = false := by
        cases hh : sep.isPrefixOf (c :: (a ++ sep ++ r)) with
        | false => rfl
        | true =>
          obtain ⟨x, hx⟩ := (isPrefixOf_iff _ _).1 hh
          exact absurd ⟨x, by simpa using hx⟩ (hn 0 (by simp))
      simp only [splitAux, hc, Bool.false_eq_true, if_false]
      rw [ih f (c :: cur) (by simp at h ⊢; omega) ?_]
      · have hl : r.length ≤ f := by simp at h; omega
        rw [splitAux_fuel f (f + 1) r [] hl (by omega)]
        simp
      · intro k hk ⟨x, hx⟩
        exact hn (k + 1) (by simp; omega) ⟨x, by simpa using hx⟩

theorem split_cut (a r : Bytes) (hn : NoneBefore (a ++ sep ++ r) a.length) : split sep (a ++ sep ++ r) = a :: split sep r := by
  unfold split
  rw [splitAux_cut _ a r [] (Nat.le_refl _) hn, splitAux_fuel _ r.length r [] (by simp; omega) (Nat.le_refl _)]
  simp

/-- without a separator nothing is cut -/
theorem split_none (s : Bytes) (hn : NoneBefore s s.length) : split sep s = [s] := by
  have : ∀ (f : Nat) (s cur : Bytes), s.length ≤ f → NoneBefore s s.length → splitAux sep f s cur = [cur.reverse ++ s] := by
    intro f
    induction f with
    | zero =>
      intro s cur h _
      obtain rfl : s = [] := by cases s <;> simp_all
      simp [splitAux]
    | succ f ih =>
      intro s cur h hn
      cases s with
      | nil => simp [splitAux]
      | cons c s =>
        have hc : sep.isPrefixOf (c :: s) = false := by
          cases hh : sep.isPrefixOf (c :: s) with
          | false => rfl
          | true =>
            obtain ⟨x, hx⟩ := (isPrefixOf_iff _ _).1 hh
            exact absurd ⟨x, by simpa using hx⟩ (hn 0 (by simp))
        simp only [splitAux, hc, Bool.false_eq_true, if_false]
        rw [ih s (c :: cur) (by simp at h; omega) ?_]
        · simp
        · intro k hk ⟨x, hx⟩
          exact hn (k + 1) (by simp; omega) ⟨x, by simpa using hx⟩
  have := this s.length s [] (Nat.le_refl _) hn
  simpa [split] using this

/-- the separator occurs in `s` -/
def Contains (s : Bytes) : Prop := ∃ u v, s = u ++ sep ++ v

/-- a text without the separator that does not end in its first four bytes is cut off exactly where the separator follows it -/
theorem noneBefore_iff (a r : Bytes) : NoneBefore (a ++ sep ++ r) a.length ↔ ¬Contains a ∧ ¬∃ u, a = u ++ b!"\n---" := by
  constructor
  · intro h
    refine ⟨?_, ?_⟩
    · rintro ⟨u, v, rfl⟩
      exact h u.length (by simp [sep]) ⟨v ++ sep ++ r, by simp⟩
    · rintro ⟨u, rfl⟩
      exact h u.length (by simp) ⟨b!"---\n" ++ r, by simp [sep]⟩
  · rintro ⟨h1, h2⟩ k hk ⟨x, hx⟩
    have e : a = a.take k ++ a.drop k := (List.take_append_drop k a).symm
    rw [List.append_assoc, List.drop_append_of_le_length (by omega)] at hx
    -- the overlap with the end of `a`
    match hd : a.drop k, hx with
    | [], _ =>
      have := congrArg List.length hd
      simp at this; omega
    | [_], hx => simp [sep] at hx
    | [_, _], hx => simp [sep] at hx
    | [_, _, _], hx => simp [sep] at hx
    | [p, q, s, t], hx =>
      simp only [sep, List.cons_append, List.nil_append, List.cons.injEq] at hx
      obtain ⟨rfl, rfl, rfl, rfl, _⟩ := hx
      exact h2 ⟨a.take k, by rw [← hd]; exact e⟩
    | p :: q :: s :: t :: w :: l, hx =>
      simp only [sep, List.cons_append, List.nil_append, List.cons.injEq] at hx
      obtain ⟨rfl, rfl, rfl, rfl, rfl, _⟩ := hx
      exact h1 ⟨a.take k, l, by rw [hd] at e; simpa [sep] using e⟩

theorem noneBefore_of_not_contains (a : Bytes) (h : ¬Contains a) : NoneBefore a a.length := by
  rintro k _ ⟨x, hx⟩
  exact h ⟨a.take k, x, by rw [List.append_assoc, ← hx, List.take_append_drop]⟩

/-- in any text the pieces before the last are cut off at their first separator -/
theorem cut_first (s : Bytes) : (¬Contains s ∧ split sep s = [s]) ∨
    ∃ a r, s = a ++ sep ++ r ∧ ¬Contains a ∧ (¬∃ u, a = u ++ b!"\n---") ∧ split sep s = a :: split sep r := by
  by_cases hc : Contains s
  · right
    obtain ⟨u, v, rfl⟩ := hc
    -- take the first occurrence
    have : ∀ n, (∃ u v, u.length = n ∧ ∃ s', s' = u ++ sep ++ v) → ∀ (u v : Bytes), u.length ≤ n →
        ∃ a r, u ++ sep ++ v = a ++ sep ++ r ∧ NoneBefore (a ++ sep ++ r) a.length := by
      intro n _
      induction n with
      | zero =>
        intro u v hu
        obtain rfl : u = [] := by cases u <;> simp_all
        exact ⟨[], v, rfl, by intro k hk; simp at hk⟩
      | succ n ih =>
        intro u v hu
        by_cases hn : NoneBefore (u ++ sep ++ v) u.length
        · exact ⟨u, v, rfl, hn⟩
        · unfold NoneBefore at hn
          have : ∃ k, k < u.length ∧ ∃ r, (u ++ sep ++ v).drop k = sep ++ r := by
            refine Classical.byContradiction fun hh => hn ?_
            intro k hk he
            exact hh ⟨k, hk, he⟩
          obtain ⟨k, hk, r, hr⟩ := this
          have e : u ++ sep ++ v = u.take k ++ sep ++ r := by
            rw [List.append_assoc (u.take k), ← hr]
            have h1 : (u ++ sep ++ v).take k = u.take k := by
              rw [List.append_assoc, List.take_append_of_le_length (by omega)]
            rw [← h1, List.take_append_drop]
          rw [e]
          exact ih ⟨List.replicate n 0, [], by simp, _, rfl⟩ (u.take k) r (by simp; omega)
    obtain ⟨a, r, e, hn⟩ := this u.length ⟨u, v, rfl, _, rfl⟩ u v (Nat.le_refl _)
    obtain ⟨h1, h2⟩ := (noneBefore_iff a r).1 hn
    exact ⟨a, r, e, h1, h2, by rw [e]; exact split_cut a r hn⟩
  · exact Or.inl ⟨hc, split_none s (noneBefore_of_not_contains s hc)⟩

theorem split_ne (s : Bytes) : split sep s ≠ [] := splitAux_ne _ _ _ _

/-- the scripts that survive: some, none contains the separator, none but the last ends like the begin of a separator -/
def Survives : List Bytes → Prop
  | [] => False
  | [a] => ¬Contains a
  | a :: b :: l => ¬Contains a ∧ (¬∃ u, a = u ++ b!"\n---") ∧ Survives (b :: l)

theorem split_joined_of_survives : ∀ l : List Bytes, Survives l → split sep (joined l) = l
  | [], h => h.elim
  | [a], h => split_none a (noneBefore_of_not_contains a h)
  | a :: b :: l, ⟨h1, h2, h3⟩ => by
    rw [joined, split_cut a _ ((noneBefore_iff a _).2 ⟨h1, h2⟩), split_joined_of_survives (b :: l) h3]

theorem split_survives (n : Nat) : ∀ s : Bytes, s.length ≤ n → Survives (split sep s) := by
  induction n with
  | zero =>
    intro s h
    obtain rfl : s = [] := by cases s <;> simp_all
    refine show ¬Contains [] from ?_
    rintro ⟨u, v, h⟩
    have := congrArg List.length h
    simp [sep] at this
  | succ n ih =>
    intro s h
    rcases cut_first s with ⟨h1, h2⟩ | ⟨a, r, rfl, h1, h2, h3⟩
    · rw [h2]; exact h1
    · rw [h3]
      have hr := ih r (by simp [sep] at h; omega)
      cases hs : split sep r with
      | nil => exact absurd hs (split_ne r)
      | cons b l => rw [hs] at hr; exact ⟨h1, h2, hr⟩

/-- **C37**: scripts are found again after writing and reading exactly if they survive. -/
theorem C37_round_trip_iff (l : List Bytes) : split sep (joined l) = l ↔ Survives l :=
  ⟨fun h => by rw [← h]; exact split_survives _ _ (Nat.le_refl _), split_joined_of_survives l⟩

theorem write_str (l : List Bytes) : write (l.map .str) = (joined l, true) := by
  induction l with
  | nil => rfl
  | cons a l ih =>
    cases l with
    | nil => rfl
    | cons b l =>
      simp only [List.map_cons] at ih ⊢
      simp only [write, Script.text] at ih ⊢
      rw [if_neg (by simp), ih]
      rfl

/-- **C37** for the package's functions: steps with string scripts are written without error, and reading the file gives the
same steps iff there is a step, no script contains the separator, and none but the last ends in a newline and three dashes. -/
theorem C37_steps (l : List Bytes) :
    (write (l.map .str)).2 = true ∧ (read (write (l.map .str)).1 = l.map .str ↔ Survives l) := by
  rw [write_str]
  refine ⟨rfl, ?_⟩
  rw [← C37_round_trip_iff]
  unfold read
  constructor
  · intro h
    have := congrArg (List.map fun | Script.str s => s | _ => []) h
    simpa [List.map_map, Function.comp_def] using this
  · intro h; rw [h]

/-- **C37**, the other direction: reading any file and writing the steps gives the file back, byte for byte. -/
theorem C37_read_write (data : Bytes) : write (read data) = (data, true) := by
  unfold read
  rw [write_str, split_joined]

/-- whatever the scripts are held in, the file is the same; a script of another type stops the writing -/
theorem C37_script_kinds (l : List Script) :
    ((write l).2 = true ↔ ∀ s ∈ l, s ≠ .other) ∧
    ∀ m : List Script, l.map Script.text = m.map Script.text → (write l) = (write m) := by
  induction l with
  | nil =>
    refine ⟨by simp [write], ?_⟩
    intro m hm
    cases m with
    | nil => rfl
    | cons a m => simp at hm
  | cons s l ih =>
    refine ⟨?_, ?_⟩
    · cases s <;> simp only [write, Script.text]
      case other => simp
      all_goals
        by_cases hl : l = []
        · simp [hl]
        · simp [hl, ih.1]
    · intro m hm
      cases m with
      | nil => simp at hm
      | cons a m =>
        simp only [List.map_cons, List.cons.injEq] at hm
        simp only [write, hm.1]
        have hlm : l = [] ↔ m = [] := by
          have := congrArg List.length hm.2
          simp at this
          constructor
          · rintro rfl; exact List.length_eq_zero_iff.1 (by simpa using this.symm)
          · rintro rfl; exact List.length_eq_zero_iff.1 (by simpa using this)
        by_cases hl : l = []
        · simp [hl, hlm.1 hl]
        · simp only [hl, mt hlm.2 hl, if_false]
          rw [ih.2 m hm.2]

example : read b!"a\n---\nb" = [.str b!"a", .str b!"b"] ∧ (write [.bytes b!"a", .reader b!"b"]).1 = b!"a\n---\nb" := by decide +kernel
/-- the three ways to lose: no steps, a separator inside, an end that looks like the begin of one -/
example : read (write []).1 = [.str []] ∧ read (write [.str b!"x\n---\ny"]).1 = [.str b!"x", .str b!"y"] ∧
    read (write [.str b!"x\n---", .str b!"y"]).1 = [.str b!"x", .str b!"---\ny"] := by decide +kernel
/-- the last script may end like that -/
example : read (write [.str b!"y", .str b!"x\n---"]).1 = [.str b!"y", .str b!"x\n---"] := by decide +kernel

/-! ### C45 -/

/-- **C45**: format options survive being turned into a map and parsed back iff they do not set a CSV separator; with one,
parsing the map fails. -/
theorem C45_round_trip (c : FormatConfig) :
    parseFormatConfigMap c.format (some c.map) = match c with
      | .csv o => if o.separator = 0 then some c else none
      | c => some c := by
  cases c with
  | csv o =>
    obtain ⟨h, l, s, v⟩ := o
    simp only [FormatConfig.format, FormatConfig.map, parseFormatConfigMap, newCSVOptions, CSVOptions.map]
    by_cases hs : s = 0
    · subst hs
      cases h <;> cases l <;> cases v <;> decide +kernel
    · simp only [hs, ne_eq, not_false_eq_true, if_true, if_false]
      have key : ∀ m, sepOpt (mapSet m b!"separator" (.rune s)) = none := by
        intro m
        simp [sepOpt, optGet, mapGet_mapSet_self]
      simp [key]
  | json m => rfl
  | xlsx s =>
    simp only [FormatConfig.format, FormatConfig.map, parseFormatConfigMap, newXLSXOptions, xlsxMap]
    by_cases hs : s = []
    · subst hs; rfl
    · simp [hs, optGet, mapGet]

/-- what the CSV parser accepts, option by option -/
def BoolOrNil (m : List (Bytes × OptVal)) (k : Bytes) : Prop :=
  mapGet m k = none ∨ mapGet m k = some (.val .null) ∨ ∃ b, mapGet m k = some (.val (.bool b))

theorem boolOpt_some (m : List (Bytes × OptVal)) (k : Bytes) : (∃ b, boolOpt m k = some b) ↔ BoolOrNil m k := by
  unfold boolOpt optGet BoolOrNil
  cases h : mapGet m k with
  | none => simp
  | some x =>
    cases x with
    | rune r => simp
    | val v => cases v <;> simp

theorem sepOpt_some (m : List (Bytes × OptVal)) : (∃ b, sepOpt m = some b) ↔
    mapGet m b!"separator" = none ∨ mapGet m b!"separator" = some (.val .null) ∨ ∃ c, mapGet m b!"separator" = some (.val (.str [c])) := by
  unfold sepOpt optGet
  cases h : mapGet m b!"separator" with
  | none => simp
  | some x =>
    cases x with
    | rune r => simp
    | val v =>
      cases v <;> simp
      rename_i s
      match s with
      | [] => simp
      | [c] => simp
      | c :: d :: s => simp

/-- **C45**: CSV options are parsed iff the three flags are absent, null or booleans and the separator is absent, null or a string of
one byte.  Other keys do not matter. -/
theorem C45_csv_accepted (m : List (Bytes × OptVal)) : (∃ o, newCSVOptions (some m) = some o) ↔
    BoolOrNil m b!"headerRow" ∧ BoolOrNil m b!"lazyQuotes" ∧ BoolOrNil m b!"variadicFields" ∧
    (mapGet m b!"separator" = none ∨ mapGet m b!"separator" = some (.val .null) ∨ ∃ c, mapGet m b!"separator" = some (.val (.str [c]))) := by
  rw [← boolOpt_some, ← boolOpt_some, ← boolOpt_some, ← sepOpt_some]
  simp only [newCSVOptions]
  cases boolOpt m b!"headerRow" <;> cases boolOpt m b!"lazyQuotes" <;> cases sepOpt m <;> cases boolOpt m b!"variadicFields" <;> simp

/-- **C45**: each CSV option is the one given in the map, and unset otherwise. -/
theorem C45_csv_values (m : List (Bytes × OptVal)) (o : CSVOptions) (h : newCSVOptions (some m) = some o) :
    (o.headerRow = true ↔ mapGet m b!"headerRow" = some (.val (.bool true))) ∧
    (o.lazyQuotes = true ↔ mapGet m b!"lazyQuotes" = some (.val (.bool true))) ∧
    (o.variadicFields = true ↔ mapGet m b!"variadicFields" = some (.val (.bool true))) ∧
    (∀ c : UInt8, mapGet m b!"separator" = some (.val (.str [c])) → o.separator = c.toNat) ∧
    (mapGet m b!"separator" = none ∨ mapGet m b!"separator" = some (.val .null) → o.separator = 0) := by
  have hb : ∀ k b, boolOpt m k = some b → (b = true ↔ mapGet m k = some (.val (.bool true))) := by
    intro k b hk
    unfold boolOpt optGet at hk
    cases h : mapGet m k with
    | none => simp [h] at hk; subst hk; simp
    | some x =>
      cases x with
      | rune r => simp [h] at hk
      | val v => cases v <;> simp [h] at hk <;> subst hk <;> simp
  simp only [newCSVOptions, Option.bind_eq_bind, Option.bind_eq_some_iff, Option.pure_def, Option.some.injEq] at h
  obtain ⟨a, h1, b, h2, c, h3, d, h4, rfl⟩ := h
  refine ⟨hb _ _ h1, hb _ _ h2, hb _ _ h4, ?_, ?_⟩
  · intro e he
    simp [sepOpt, optGet, he] at h3
    exact h3.symm
  · rintro (he | he) <;> simp [sepOpt, optGet, he] at h3 <;> exact h3.symm

/-- what a CSV options map can say, and that it is lost when it says a separator -/
example : newCSVOptions (some [(b!"headerRow", .val (.bool true)), (b!"separator", .val (.str b!";"))]) = some { headerRow := true, separator := 59 } ∧
    newCSVOptions (some (CSVOptions.map { headerRow := true, separator := 59 })) = none := by decide +kernel
example : parseFormatConfigMap .xlsx (some (FormatConfig.xlsx b!"sheet 1").map) = some (.xlsx b!"sheet 1") := by decide +kernel
/-- options of other formats are not parsed -/
example : parseFormatConfigMap .cbor none = none ∧ parseFormatConfigMap .csv none = some (.csv {}) := by decide +kernel

end Verif.Config
