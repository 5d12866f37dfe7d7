import Verif.Lemmas.Sign
/-
JSON text of `time.Time` (package time: MarshalJSON uses RFC3339 with nanoseconds and refuses
years outside 0..9999; UnmarshalJSON parses RFC3339).  Texts on which versions of Go disagree (hours of one digit, more than
nine digits of a fraction, offsets of a day and more) count as not understood.
-/
namespace Verif.Doc

/-- days in a month of the proleptic Gregorian calendar -/
def daysIn (y : Nat) (m : Nat) : Nat :=
  if m = 2 then (if y % 4 = 0 ∧ (y % 100 ≠ 0 ∨ y % 400 = 0) then 29 else 28)
  else if m = 4 ∨ m = 6 ∨ m = 9 ∨ m = 11 then 30 else 31

/-- a calendar date and clock time that JSON can carry -/
def Time.Real (t : Time) : Prop :=
  0 ≤ t.year ∧ t.year ≤ 9999 ∧ 1 ≤ t.month ∧ t.month ≤ 12 ∧ 1 ≤ t.day ∧ t.day ≤ daysIn t.year.toNat t.month ∧
  t.hour < 24 ∧ t.minute < 60 ∧ t.second < 60 ∧ t.nanos < 1000000000

instance (t : Time) : Decidable t.Real := inferInstanceAs (Decidable (_ ∧ _))

/-- drop trailing '0' characters -/
def stripZeros (s : Bytes) : Bytes := (s.reverse.dropWhile (· = 48)).reverse

/-- fractional seconds, empty when zero -/
def fracText (n : Nat) : Bytes := if n = 0 then [] else 46 :: stripZeros (padNat 9 n)

/-- `Format("2006-01-02T15:04:05.999999999Z07:00")` in UTC -/
def timeText (t : Time) : Bytes :=
  fmtYear t.year ++ 45 :: padNat 2 t.month ++ 45 :: padNat 2 t.day ++ 84 :: padNat 2 t.hour ++ 58 :: padNat 2 t.minute ++
    58 :: padNat 2 t.second ++ fracText t.nanos ++ [90]

/-- `Time.MarshalJSON` (without the quotes) -/
def encTime (t : Time) : Option Bytes := if 0 ≤ t.year ∧ t.year ≤ 9999 then some (timeText t) else none

/-- exactly `w` digits -/
def takeNum (w : Nat) (s : Bytes) : Option (Nat × Bytes) :=
  if (s.take w).length = w then (parseNatAux 0 (s.take w)).map fun n => (n, s.drop w) else none

/-- one literal character -/
def takeChar (c : UInt8) : Bytes → Option Bytes
  | [] => none
  | x :: t => if x = c then some t else none

/-- optional fraction of at most nine digits, as nanoseconds -/
def takeFrac (s : Bytes) : Option (Nat × Bytes) :=
  match s with
  | 46 :: t =>
    let ds := t.takeWhile isDigit
    if ds = [] ∨ 9 < ds.length then none
    else (parseNatAux 0 (ds ++ List.replicate (9 - ds.length) 48)).map fun n => (n, t.drop ds.length)
  | _ => some (0, s)

/-- the day after -/
def Time.nextDay (t : Time) : Time :=
  if t.day < daysIn (t.year % 400).toNat t.month then { t with day := t.day + 1 }
  else if t.month < 12 then { t with month := t.month + 1, day := 1 }
  else { t with year := t.year + 1, month := 1, day := 1 }

/-- the day before -/
def Time.prevDay (t : Time) : Time :=
  if 1 < t.day then { t with day := t.day - 1 }
  else if 1 < t.month then { t with month := t.month - 1, day := daysIn (t.year % 400).toNat (t.month - 1) }
  else { t with year := t.year - 1, month := 12, day := 31 }

/-- later by so many minutes, less than a day -/
def Time.shift (t : Time) (min : Int) : Time :=
  let m : Int := t.hour * 60 + t.minute + min
  let clock (t : Time) (m : Int) : Time := { t with hour := (m / 60).toNat, minute := (m % 60).toNat }
  if m < 0 then clock t.prevDay (m + 1440) else if m < 1440 then clock t m else clock t.nextDay (m - 1440)

/-- `Z07:00` -/
def zoneText (off : Int) : Bytes :=
  if off = 0 then [90] else (if off < 0 then 45 else 43) :: (padNat 2 (off.natAbs / 60) ++ 58 :: padNat 2 (off.natAbs % 60))

/-- `Time.MarshalJSON` (without the quotes) of a time whose location is `off` minutes east of Greenwich: the fields are those
of the local clock, and the local year decides whether it can be written.  Offsets of whole minutes only. -/
def encTimeIn (off : Int) (t : Time) : Option Bytes :=
  let l := t.shift off
  if 0 ≤ l.year ∧ l.year ≤ 9999 then
    some (fmtYear l.year ++ 45 :: padNat 2 l.month ++ 45 :: padNat 2 l.day ++ 84 :: padNat 2 l.hour ++ 58 :: padNat 2 l.minute ++
      58 :: padNat 2 l.second ++ fracText l.nanos ++ zoneText off)
  else none

/-- the zone at the end of the text, in minutes east of Greenwich -/
def zone (s : Bytes) : Option Int :=
  match s with
  | [90] => some 0
  | sg :: s => do
    let (h, s) ← takeNum 2 s
    let s ← takeChar 58 s
    let (m, s) ← takeNum 2 s
    if s = [] ∧ h < 24 ∧ m < 60 then
      if sg = 43 then some (h * 60 + m : Nat) else if sg = 45 then some (-(h * 60 + m : Nat)) else none
    else none
  | [] => none

/-- `time.Parse(time.RFC3339, s)`: the instant; that the time remembers its offset is left out -/
def parseTime (s : Bytes) : Option Time := do
  let (y, s) ← takeNum 4 s
  let s ← takeChar 45 s
  let (mo, s) ← takeNum 2 s
  let s ← takeChar 45 s
  let (d, s) ← takeNum 2 s
  let s ← takeChar 84 s
  let (h, s) ← takeNum 2 s
  let s ← takeChar 58 s
  let (mi, s) ← takeNum 2 s
  let s ← takeChar 58 s
  let (se, s) ← takeNum 2 s
  let (n, s) ← takeFrac s
  let z ← zone s
  if 1 ≤ mo ∧ mo ≤ 12 ∧ 1 ≤ d ∧ d ≤ daysIn y mo ∧ h < 24 ∧ mi < 60 ∧ se < 60 then
    some (Time.shift { year := y, month := mo, day := d, hour := h, minute := mi, second := se, nanos := n } (-z))
  else none

/-! ### Reading back what was written -/

theorem takeNum_pad (w n : Nat) (r : Bytes) (h : (padNat w n).length = w) : takeNum w (padNat w n ++ r) = some (n, r) := by
  have h1 : (padNat w n ++ r).take w = padNat w n := by rw [List.take_append_of_le_length (by omega), List.take_of_length_le (by omega)]
  have h2 : (padNat w n ++ r).drop w = r := by rw [List.drop_append_of_le_length (by omega), List.drop_eq_nil_of_le (by omega)]; rfl
  rw [takeNum, h1, h2, if_pos h, parse_padNat]; rfl

theorem fmtNat_length_lt (k n : Nat) (hk : 0 < k) (h : n < 10 ^ k) : (fmtNat n).length ≤ k := by
  have aux : ∀ f n k, 0 < k → n < 10 ^ k → (fmtNatF f n).length ≤ k := by
    intro f
    induction f with
    | zero => intro n k hk _; simp [fmtNatF]; omega
    | succ f ih =>
      intro n k hk h
      simp only [fmtNatF]
      split
      · simp; omega
      · obtain ⟨k, rfl⟩ : ∃ j, k = j + 1 := ⟨k - 1, by omega⟩
        rename_i hn
        have hk' : 0 < k := by
          rcases Nat.eq_zero_or_pos k with rfl | hp
          · simp at h; omega
          · exact hp
        have := ih (n / 10) k hk' (by rw [Nat.pow_succ] at h; omega)
        simp; omega
  exact aux n n k hk h

theorem padNat_length (w n : Nat) (hw : 0 < w) (h : n < 10 ^ w) : (padNat w n).length = w := by
  have := fmtNat_length_lt w n hw h
  simp [padNat]; omega

theorem stripZeros_pad (s : Bytes) : ∃ k, s = stripZeros s ++ List.replicate k 48 := by
  refine ⟨(s.reverse.takeWhile (· = 48)).length, ?_⟩
  have h := List.takeWhile_append_dropWhile (p := fun c : UInt8 => c = 48) (l := s.reverse)
  have hr : s = (s.reverse.dropWhile (· = 48)).reverse ++ (s.reverse.takeWhile (· = 48)).reverse := by
    rw [← List.reverse_append, h, List.reverse_reverse]
  have hz : (s.reverse.takeWhile (· = 48)).reverse = List.replicate (s.reverse.takeWhile (· = 48)).length 48 := by
    rw [List.eq_replicate_iff]
    refine ⟨by simp, ?_⟩
    intro c hc
    have hall : ∀ (l : Bytes), ∀ c ∈ l.takeWhile (· = 48), c = 48 := by
      intro l
      induction l with
      | nil => simp
      | cons x l ih =>
        intro c hc
        rw [List.takeWhile_cons] at hc
        split at hc
        · rename_i hx
          rcases List.mem_cons.mp hc with rfl | hc
          · simpa using hx
          · exact ih c hc
        · simp at hc
    exact hall _ c (List.mem_reverse.mp hc)
  rw [← hz]; exact hr

theorem takeWhile_digits (s r : Bytes) (h : ∀ c ∈ s, isDigit c = true) (c : UInt8) (hc : isDigit c = false) :
    (s ++ c :: r).takeWhile isDigit = s := by
  induction s with
  | nil => simp [hc]
  | cons x t ih =>
    have := h x (by simp)
    simp only [List.cons_append, List.takeWhile_cons, this, if_true]
    rw [ih (fun c hc => h c (by simp [hc]))]

theorem takeFrac_text (n : Nat) (h : n < 1000000000) (r : Bytes) : takeFrac (fracText n ++ 90 :: r) = some (n, 90 :: r) := by
  unfold fracText
  split
  · rename_i e; subst e; rfl
  · rename_i hn
    have hlen := padNat_length 9 n (by decide) h
    obtain ⟨k, hk⟩ := stripZeros_pad (padNat 9 n)
    have hd : ∀ c ∈ stripZeros (padNat 9 n), isDigit c = true := by
      intro c hc
      exact padNat_digits 9 n c (by rw [hk]; simp [hc])
    have htw := takeWhile_digits _ r hd 90 (by decide)
    have hl : (stripZeros (padNat 9 n)).length + k = 9 := by
      have := congrArg List.length hk
      simp only [List.length_append, List.length_replicate, hlen] at this
      omega
    have hne : stripZeros (padNat 9 n) ≠ [] := by
      intro e
      rw [e] at hk
      have hp := parse_padNat 9 n
      rw [hk, List.nil_append, ← List.append_nil (List.replicate k 48), parseNatAux_zeros] at hp
      simp [parseNatAux] at hp
      exact hn hp.symm
    simp only [List.cons_append, takeFrac]
    rw [htw, if_neg (by simp only [not_or]; exact ⟨hne, by omega⟩)]
    have h9 : 9 - (stripZeros (padNat 9 n)).length = k := by omega
    rw [h9, ← hk, parse_padNat, List.drop_append_of_le_length (by omega), List.drop_eq_nil_of_le (by omega)]
    rfl

theorem Time.shift_none (t : Time) (h : t.hour < 24) (hm : t.minute < 60) : t.shift 0 = t := by
  unfold Time.shift
  simp only
  rw [if_neg (by omega), if_pos (by omega)]
  cases t
  simp only [Time.mk.injEq, true_and, and_true] at *
  constructor <;> omega

theorem parseTime_text (t : Time) (h : t.Real) : parseTime (timeText t) = some t := by
  obtain ⟨year, month, day, hour, minute, second, nanos⟩ := t
  obtain ⟨y0, y1, m0, m1, d0, d1, h1, mi1, s1, n1⟩ := h
  simp only at y0 y1 m0 m1 d0 d1 h1 mi1 s1 n1
  obtain ⟨y, rfl⟩ := Int.eq_ofNat_of_zero_le y0
  have hd : daysIn y month ≤ 31 := by unfold daysIn; split <;> split <;> omega
  simp only [Int.toNat_natCast] at d1
  have fy : fmtYear (y : Int) = padNat 4 y := by
    unfold fmtYear; rw [if_neg (by omega)]; simp
  have p2 : ∀ n, n < 100 → (padNat 2 n).length = 2 := fun n hn => padNat2_length hn
  have p4 : (padNat 4 y).length = 4 := padNat_length 4 y (by decide) (by omega)
  unfold parseTime timeText
  simp only [fy, List.append_assoc, List.cons_append]
  rw [takeNum_pad _ _ _ p4]
  simp only [Option.bind_eq_bind, Option.bind_some, takeChar, if_true]
  rw [takeNum_pad _ _ _ (p2 month (by omega))]
  simp only [Option.bind_some, if_true]
  rw [takeNum_pad _ _ _ (p2 day (by omega))]
  simp only [Option.bind_some, if_true]
  rw [takeNum_pad _ _ _ (p2 hour (by omega))]
  simp only [Option.bind_some, if_true]
  rw [takeNum_pad _ _ _ (p2 minute (by omega))]
  simp only [Option.bind_some, if_true]
  rw [takeNum_pad _ _ _ (p2 second (by omega))]
  simp only [Option.bind_some]
  rw [takeFrac_text _ n1]
  simp only [Option.bind_some, zone]
  rw [if_pos ⟨m0, m1, d0, d1, h1, mi1, s1⟩]
  exact congrArg some (Time.shift_none _ h1 mi1)

example : timeText { year := 2001, month := 2, day := 3, hour := 4, nanos := 120000000 } = b!"2001-02-03T04:00:00.12Z" := by decide +kernel
example : parseTime b!"2001-02-30T04:00:00Z" = none := by decide +kernel
example : parseTime b!"2000-03-01T01:30:00.5+02:30" = some { year := 2000, month := 2, day := 29, hour := 23, nanos := 500000000 } := by decide +kernel

example : encTimeIn (-90) { year := 2001, nanos := 120000000 } = some b!"2000-12-31T22:30:00.12-01:30" := by decide +kernel

end Verif.Doc
