import Verif.Spec.Instant
/-
Days of the Gregorian calendar counted and shifted, and texts of times with zones.
-/
set_option autoImplicit false
namespace Verif.Doc

/-- the length of a month by the table -/
theorem daysBefore_succ (y : Int) (m : Nat) (h1 : 1 ≤ m) (h2 : m < 12) :
    daysBefore (leapYear y) (m + 1) = daysBefore (leapYear y) m + daysIn (y % 400).toNat m := by
  have hl : leapYear y = leapYear ((y % 400).toNat : Int) := by
    unfold leapYear
    have e4 : ((y % 400).toNat : Int) % 4 = y % 4 := by omega
    have e100 : ((y % 400).toNat : Int) % 100 = y % 100 := by omega
    have e400 : ((y % 400).toNat : Int) % 400 = y % 400 := by omega
    rw [e4, e100, e400]
  rw [hl]
  generalize (y % 400).toNat = n
  have hn : ((leapYear (n : Int)) = true) ↔ (n % 4 = 0 ∧ (n % 100 ≠ 0 ∨ n % 400 = 0)) := by
    unfold leapYear
    rw [decide_eq_true_iff]
    omega
  have hm : m = 1 ∨ m = 2 ∨ m = 3 ∨ m = 4 ∨ m = 5 ∨ m = 6 ∨ m = 7 ∨ m = 8 ∨ m = 9 ∨ m = 10 ∨ m = 11 := by omega
  unfold daysIn
  cases hb : leapYear (n : Int)
  · rw [hb] at hn
    have : ¬ (n % 4 = 0 ∧ (n % 100 ≠ 0 ∨ n % 400 = 0)) := fun h => by simpa using hn.2 h
    rw [if_neg this]
    rcases hm with rfl | rfl | rfl | rfl | rfl | rfl | rfl | rfl | rfl | rfl | rfl <;> rfl
  · rw [if_pos (hn.1 hb)]
    rcases hm with rfl | rfl | rfl | rfl | rfl | rfl | rfl | rfl | rfl | rfl | rfl <;> rfl

/-- days in a year -/
theorem year_length (y : Int) : 365 * (y + 1) + (y + 1 + 3) / 4 - (y + 1 + 99) / 100 + (y + 1 + 399) / 400 =
    365 * y + (y + 3) / 4 - (y + 99) / 100 + (y + 399) / 400 + 365 + if leapYear y then 1 else 0 := by
  by_cases h : leapYear y = true
  · have := h
    unfold leapYear at this
    rw [decide_eq_true_iff] at this
    rw [if_pos h]
    omega
  · have h' := h
    unfold leapYear at h'
    rw [decide_eq_true_iff] at h'
    rw [if_neg h]
    omega

theorem daysIn_mod (y : Int) (hy : 0 ≤ y) (m : Nat) : daysIn (y % 400).toNat m = daysIn y.toNat m := by
  unfold daysIn
  have e4 : (y % 400).toNat % 4 = y.toNat % 4 := by omega
  have e100 : (y % 400).toNat % 100 = y.toNat % 100 := by omega
  have e400 : (y % 400).toNat % 400 = y.toNat % 400 := by omega
  rw [e4, e100, e400]

theorem december (n : Nat) : daysIn n 12 = 31 := rfl
theorem lastMonth (b : Bool) : daysBefore b 12 = 334 + if b then 1 else 0 := rfl
theorem daysIn_pos (n m : Nat) : 1 ≤ daysIn n m := by unfold daysIn; split <;> split <;> omega

theorem firstMonth (b : Bool) : daysBefore b 1 = 0 := rfl

theorem Time.nextDay_number (t : Time) (h : t.InCalendar) : t.nextDay.dayNumber = t.dayNumber + 1 := by
  obtain ⟨m1, m2, d1, d2, _⟩ := h
  unfold Time.nextDay
  split
  · simp only [Time.dayNumber]; omega
  · split
    · have := daysBefore_succ t.year t.month m1 (by assumption)
      simp only [Time.dayNumber, this]; omega
    · have hm : t.month = 12 := by omega
      have hd : t.day = 31 := by
        have := december (t.year % 400).toNat
        rename_i h1 _
        rw [hm] at d2 h1
        omega
      have := year_length t.year
      simp only [Time.dayNumber]
      rw [hm, hd, lastMonth, firstMonth, this]
      generalize (if leapYear t.year = true then (1 : Int) else 0) = z
      omega

theorem Time.prevDay_number (t : Time) (h : t.InCalendar) : t.prevDay.dayNumber = t.dayNumber - 1 := by
  obtain ⟨m1, m2, d1, d2, _⟩ := h
  unfold Time.prevDay
  split
  · simp only [Time.dayNumber]; omega
  · split
    · have := daysBefore_succ t.year (t.month - 1) (by omega) (by omega)
      rw [Nat.sub_add_cancel m1] at this
      simp only [Time.dayNumber, this]; omega
    · have hm : t.month = 1 := by omega
      have hd : t.day = 1 := by omega
      have := year_length (t.year - 1)
      rw [show t.year - 1 + 1 = t.year by omega] at this
      simp only [Time.dayNumber]
      rw [hm, hd, lastMonth, firstMonth, this]
      generalize (if leapYear (t.year - 1) = true then (1 : Int) else 0) = z
      omega

theorem Time.nextDay_calendar (t : Time) (h : t.InCalendar) : t.nextDay.InCalendar := by
  obtain ⟨m1, m2, d1, d2, hc⟩ := h
  unfold Time.nextDay
  split
  · exact ⟨m1, m2, by simp, by simp only; omega, hc⟩
  · split
    · exact ⟨by simp, by simp only; omega, by simp, daysIn_pos _ _, hc⟩
    · exact ⟨by simp, by simp, by simp, daysIn_pos _ _, hc⟩

theorem Time.prevDay_calendar (t : Time) (h : t.InCalendar) : t.prevDay.InCalendar := by
  obtain ⟨m1, m2, d1, d2, hc⟩ := h
  unfold Time.prevDay
  split
  · exact ⟨m1, m2, by simp only; omega, by simp only; omega, hc⟩
  · split
    · exact ⟨by simp only; omega, by simp only; omega, daysIn_pos _ _, Nat.le_refl _, hc⟩
    · exact ⟨by simp, by simp, by simp, by simp [december], hc⟩

/-- Shifting by minutes is shifting the instant, and gives a date of the calendar. -/
theorem Time.shift_spec (t : Time) (h : t.InCalendar) (min : Int) (h1 : -1440 < min) (h2 : min < 1440) :
    (t.shift min).InCalendar ∧ (t.shift min).seconds = t.seconds + 60 * min ∧ (t.shift min).nanos = t.nanos := by
  have key : ∀ (u : Time) (m : Int) (δ : Int), u.InCalendar → u.second = t.second → u.nanos = t.nanos → u.dayNumber = t.dayNumber + δ →
      0 ≤ m → m < 1440 → m = t.hour * 60 + t.minute + min - 1440 * δ →
      ({ u with hour := (m / 60).toNat, minute := (m % 60).toNat } : Time).InCalendar ∧
      ({ u with hour := (m / 60).toNat, minute := (m % 60).toNat } : Time).seconds = t.seconds + 60 * min ∧
      ({ u with hour := (m / 60).toNat, minute := (m % 60).toNat } : Time).nanos = t.nanos := by
    intro u m δ ⟨c1, c2, c3, c4, c5, c6, c7, c8⟩ hs hn hd m0 m1 hm
    refine ⟨⟨c1, c2, c3, c4, by simp only; omega, by simp only; omega, c7, c8⟩, ?_, hn⟩
    have hd' : ({ u with hour := (m / 60).toNat, minute := (m % 60).toNat } : Time).dayNumber = t.dayNumber + δ := hd
    unfold Time.seconds
    rw [hd']
    simp only [hs]
    omega
  have hc := h
  obtain ⟨c1, c2, c3, c4, c5, c6, c7, c8⟩ := hc
  unfold Time.shift
  simp only
  split
  · exact key t.prevDay _ (-1) (t.prevDay_calendar h) (by unfold Time.prevDay; repeat (first | rfl | split)) (by unfold Time.prevDay; repeat (first | rfl | split))
      (by rw [t.prevDay_number h]; omega) (by omega) (by omega) (by omega)
  · split
    · exact key t _ 0 h rfl rfl (by omega) (by omega) (by omega) (by omega)
    · exact key t.nextDay _ 1 (t.nextDay_calendar h) (by unfold Time.nextDay; repeat (first | rfl | split)) (by unfold Time.nextDay; repeat (first | rfl | split))
        (by rw [t.nextDay_number h]) (by omega) (by omega) (by omega)

/-! ### instants determine dates -/

def yearStart (y : Int) : Int := 365 * y + (y + 3) / 4 - (y + 99) / 100 + (y + 399) / 400

theorem yearStart_lt (y z : Int) (h : y < z) : yearStart y + 365 + (if leapYear y then 1 else 0) ≤ yearStart z := by
  have h1 := year_length y
  have h2 : yearStart (y + 1) ≤ yearStart z := by unfold yearStart; omega
  unfold yearStart at *
  omega

theorem daysBefore_mono (y : Int) (m n : Nat) (h1 : 1 ≤ m) (h2 : m < n) (h3 : n ≤ 12) :
    daysBefore (leapYear y) m + daysIn (y % 400).toNat m ≤ daysBefore (leapYear y) n := by
  induction n with
  | zero => omega
  | succ n ih =>
    by_cases e : m = n
    · subst e
      rw [daysBefore_succ y m h1 (by omega)]
      exact Int.le_refl _
    · have := ih (by omega) (by omega)
      rw [daysBefore_succ y n (by omega) (by omega)]
      omega

theorem daysBefore_end (y : Int) (m : Nat) (h1 : 1 ≤ m) (h2 : m ≤ 12) :
    0 ≤ daysBefore (leapYear y) m ∧ daysBefore (leapYear y) m + daysIn (y % 400).toNat m ≤ 365 + (if leapYear y then 1 else 0) := by
  constructor
  · rcases Nat.lt_or_ge 1 m with h | h
    · have := daysBefore_mono y 1 m (by omega) h h2
      rw [firstMonth] at this
      omega
    · have : m = 1 := by omega
      subst this
      exact Int.le_refl _
  · have hl := lastMonth (leapYear y)
    have hd := december (y % 400).toNat
    rcases Nat.lt_or_ge m 12 with h | h
    · have := daysBefore_mono y m 12 h1 h (by omega)
      omega
    · have : m = 12 := by omega
      subst this
      omega

theorem Time.dayNumber_eq (t : Time) : t.dayNumber = yearStart t.year + daysBefore (leapYear t.year) t.month + t.day - 1 := rfl

/-- Two dates with the same number are the same. -/
theorem Time.dayNumber_inj (t u : Time) (ht : t.InCalendar) (hu : u.InCalendar) (h : t.dayNumber = u.dayNumber) :
    t.year = u.year ∧ t.month = u.month ∧ t.day = u.day := by
  obtain ⟨m1, m2, d1, d2, _⟩ := ht
  obtain ⟨n1, n2, e1, e2, _⟩ := hu
  rw [t.dayNumber_eq, u.dayNumber_eq] at h
  have bt := daysBefore_end t.year t.month m1 m2
  have bu := daysBefore_end u.year u.month n1 n2
  have hy : t.year = u.year := by
    rcases Int.lt_trichotomy t.year u.year with hlt | heq | hlt
    · have := yearStart_lt _ _ hlt; omega
    · exact heq
    · have := yearStart_lt _ _ hlt; omega
  rw [hy] at h d2 bt
  have hm : t.month = u.month := by
    rcases Nat.lt_trichotomy t.month u.month with hlt | heq | hlt
    · have := daysBefore_mono u.year _ _ m1 hlt n2; omega
    · exact heq
    · have := daysBefore_mono u.year _ _ n1 hlt m2; omega
  rw [hm] at h
  exact ⟨hy, hm, by omega⟩

theorem Time.seconds_inj (t u : Time) (ht : t.InCalendar) (hu : u.InCalendar) (h : t.seconds = u.seconds) (hn : t.nanos = u.nanos) : t = u := by
  have ht' := ht
  have hu' := hu
  obtain ⟨_, _, _, _, a1, a2, a3, _⟩ := ht'
  obtain ⟨_, _, _, _, b1, b2, b3, _⟩ := hu'
  unfold Time.seconds at h
  have hd : t.dayNumber = u.dayNumber := by omega
  obtain ⟨e1, e2, e3⟩ := t.dayNumber_inj u ht hu hd
  have e4 : t.hour = u.hour := by omega
  have e5 : t.minute = u.minute := by omega
  have e6 : t.second = u.second := by omega
  cases t; cases u
  simp only at e1 e2 e3 e4 e5 e6 hn
  subst e1 e2 e3 e4 e5 e6 hn
  rfl

theorem Time.shift_zero (t : Time) (h : t.InCalendar) : t.shift 0 = t := by
  obtain ⟨h1, h2, h3⟩ := t.shift_spec h 0 (by decide) (by decide)
  exact (t.shift 0).seconds_inj t h1 h (by omega) h3

theorem Time.shift_back (t : Time) (h : t.InCalendar) (min : Int) (h1 : -1440 < min) (h2 : min < 1440) : (t.shift min).shift (-min) = t := by
  obtain ⟨a1, a2, a3⟩ := t.shift_spec h min h1 h2
  obtain ⟨b1, b2, b3⟩ := (t.shift min).shift_spec a1 (-min) (by omega) (by omega)
  exact ((t.shift min).shift (-min)).seconds_inj t b1 h (by omega) (by rw [b3, a3])


/-! ### Texts -/

theorem parseNatAux_range (s : Bytes) : ∀ (a n : Nat), parseNatAux a s = some n → a * 10 ^ s.length ≤ n ∧ n < (a + 1) * 10 ^ s.length := by
  induction s with
  | nil => intro a n h; simp only [parseNatAux, Option.some.injEq] at h; simp [h]
  | cons c s ih =>
    intro a n h
    simp only [parseNatAux] at h
    split at h
    · rename_i hc
      have hc' : c.toNat - 48 ≤ 9 := by
        simp only [isDigit, Bool.and_eq_true, decide_eq_true_eq, UInt8.le_iff_toNat_le] at hc
        have : (57 : UInt8).toNat = 57 := rfl
        omega
      obtain ⟨h1, h2⟩ := ih _ _ h
      rw [List.length_cons, Nat.pow_succ]
      generalize 10 ^ s.length = p at *
      generalize c.toNat - 48 = d at *
      constructor
      · calc a * (p * 10) = a * 10 * p := by rw [Nat.mul_comm p 10, Nat.mul_assoc]
          _ ≤ (a * 10 + d) * p := Nat.mul_le_mul_right _ (by omega)
          _ ≤ n := h1
      · calc n < (a * 10 + d + 1) * p := h2
          _ ≤ ((a + 1) * 10) * p := Nat.mul_le_mul_right _ (by omega)
          _ = (a + 1) * (p * 10) := by rw [Nat.mul_comm p 10, Nat.mul_assoc]
    · cases h

/-- digits of the same number, equally many, are the same -/
theorem parseNatAux_inj (s : Bytes) : ∀ (t : Bytes) (a b n : Nat), s.length = t.length → parseNatAux a s = some n → parseNatAux b t = some n →
    a = b ∧ s = t := by
  induction s with
  | nil =>
    intro t a b n hl h1 h2
    cases t with
    | nil => simp only [parseNatAux, Option.some.injEq] at h1 h2; exact ⟨by omega, rfl⟩
    | cons => simp at hl
  | cons c s ih =>
    intro t a b n hl h1 h2
    cases t with
    | nil => simp at hl
    | cons d t =>
      simp only [parseNatAux] at h1 h2
      split at h1
      · split at h2
        · rename_i hc hd
          obtain ⟨e, e'⟩ := ih t _ _ n (by simpa using hl) h1 h2
          simp only [isDigit, Bool.and_eq_true, decide_eq_true_eq, UInt8.le_iff_toNat_le] at hc hd
          have h48 : (48 : UInt8).toNat = 48 := rfl
          have h57 : (57 : UInt8).toNat = 57 := rfl
          have hcd : c = d := UInt8.toNat_inj.mp (by omega)
          exact ⟨by omega, by rw [hcd, e']⟩
        · cases h2
      · cases h1

theorem takeNum_iff (w : Nat) (hw : 0 < w) (s : Bytes) (n : Nat) (r : Bytes) :
    takeNum w s = some (n, r) ↔ n < 10 ^ w ∧ s = padNat w n ++ r := by
  constructor
  · intro h
    unfold takeNum at h
    split at h
    · rename_i hl
      rw [Option.map_eq_some_iff] at h
      obtain ⟨m, hm, e⟩ := h
      obtain ⟨rfl, rfl⟩ := Prod.mk.inj e
      have hr := parseNatAux_range _ _ _ hm
      rw [hl] at hr
      have hlt : m < 10 ^ w := by omega
      refine ⟨hlt, ?_⟩
      have := (parseNatAux_inj _ _ 0 0 m (by rw [hl, padNat_length w m hw hlt]) hm (parse_padNat w m)).2
      rw [← this, List.take_append_drop]
    · cases h
  · rintro ⟨h, rfl⟩
    exact takeNum_pad w n r (padNat_length w n hw h)

theorem takeChar_iff (c : UInt8) (s r : Bytes) : takeChar c s = some r ↔ s = c :: r := by
  cases s with
  | nil => simp [takeChar]
  | cons x t =>
    simp only [takeChar]
    split
    · rename_i e; subst e; simp
    · rename_i e
      constructor
      · intro h; cases h
      · intro h; exact absurd (List.cons.inj h).1 e

theorem zone_signed (sg : UInt8) (s : Bytes) (h : sg ≠ 90) : zone (sg :: s) = (do
    let (h, s) ← takeNum 2 s
    let s ← takeChar 58 s
    let (m, s) ← takeNum 2 s
    if s = [] ∧ h < 24 ∧ m < 60 then
      if sg = 43 then some (h * 60 + m : Nat) else if sg = 45 then some (-(h * 60 + m : Nat)) else none
    else none) := by
  unfold zone
  split
  · rename_i e; exact absurd (List.cons.inj e).1 h
  · rename_i e
    obtain ⟨rfl, rfl⟩ := List.cons.inj e
    rfl
  · rename_i e; cases e

theorem zone_iff (s : Bytes) (z : Int) : zone s = some z ↔ ZoneText s z := by
  constructor
  · intro h
    unfold zone at h
    split at h
    · cases h; exact .utc
    · rename_i sg s hne
      simp only [Option.bind_eq_bind, Option.bind_eq_some_iff, Prod.exists] at h
      obtain ⟨hh, r, h1, r', h2, m, r'', h3, h4⟩ := h
      rw [takeNum_iff 2 (by decide)] at h1 h3
      rw [takeChar_iff] at h2
      obtain ⟨_, rfl⟩ := h1
      subst h2
      obtain ⟨_, rfl⟩ := h3
      split at h4
      · rename_i hc
        obtain ⟨rfl, c1, c2⟩ := hc
        rw [List.append_nil]
        split at h4
        · rename_i e; subst e
          rw [← Option.some.inj h4]
          have := ZoneText.east hh m c1 c2
          simpa using this
        · split at h4
          · rename_i e; subst e
            rw [← Option.some.inj h4]
            have := ZoneText.west hh m c1 c2
            simpa using this
          · cases h4
      · cases h4
    · cases h
  · intro h
    cases h with
    | utc => rfl
    | east hh m c1 c2 =>
      have p : (43 :: padNat 2 hh ++ 58 :: padNat 2 m : Bytes) = 43 :: (padNat 2 hh ++ (58 :: (padNat 2 m ++ []))) := by simp
      rw [p, zone_signed _ _ (by decide)]
      rw [(takeNum_iff 2 (by decide) _ hh _).mpr ⟨by omega, rfl⟩]
      simp only [Option.bind_eq_bind, Option.bind_some, takeChar, if_true]
      rw [(takeNum_iff 2 (by decide) _ m _).mpr ⟨by omega, rfl⟩]
      simp only [Option.bind_some]
      rw [if_pos ⟨trivial, c1, c2⟩]
      simp
    | west hh m c1 c2 =>
      have p : (45 :: padNat 2 hh ++ 58 :: padNat 2 m : Bytes) = 45 :: (padNat 2 hh ++ (58 :: (padNat 2 m ++ []))) := by simp
      rw [p, zone_signed _ _ (by decide)]
      rw [(takeNum_iff 2 (by decide) _ hh _).mpr ⟨by omega, rfl⟩]
      simp only [Option.bind_eq_bind, Option.bind_some, takeChar, if_true]
      rw [(takeNum_iff 2 (by decide) _ m _).mpr ⟨by omega, rfl⟩]
      simp only [Option.bind_some]
      rw [if_pos ⟨trivial, c1, c2⟩]
      simp

theorem parseNatAux_all (s : Bytes) : ∀ (a : Nat), (∀ c ∈ s, isDigit c = true) → ∃ n, parseNatAux a s = some n := by
  induction s with
  | nil => intro a _; exact ⟨a, rfl⟩
  | cons c s ih =>
    intro a h
    simp only [parseNatAux, h c (by simp), if_true]
    exact ih _ (fun x hx => h x (by simp [hx]))

theorem parseNatAux_trail (k : Nat) : ∀ (a : Nat), parseNatAux a (List.replicate k 48) = some (a * 10 ^ k) := by
  induction k with
  | zero => intro a; simp [parseNatAux]
  | succ k ih =>
    intro a
    rw [List.replicate_succ]
    simp only [parseNatAux, show isDigit 48 = true from rfl, if_true]
    rw [ih, show a * 10 + ((48 : UInt8).toNat - 48) = a * 10 from rfl, Nat.pow_succ, Nat.mul_assoc, Nat.mul_comm 10]

/-- a zone does not begin with a digit or a point -/
theorem ZoneText.head {s : Bytes} {z : Int} (h : ZoneText s z) : ∃ c r, s = c :: r ∧ isDigit c = false ∧ c ≠ 46 := by
  cases h with
  | utc => exact ⟨90, [], rfl, rfl, by decide⟩
  | east => exact ⟨43, _, rfl, rfl, by decide⟩
  | west => exact ⟨45, _, rfl, rfl, by decide⟩

theorem takeFrac_sound (s : Bytes) (n : Nat) (r : Bytes) (h : takeFrac s = some (n, r)) : ∃ fr, FracText fr n ∧ s = fr ++ r := by
  unfold takeFrac at h
  split at h
  · rename_i t
    simp only at h
    split at h
    · cases h
    · rename_i hc
      simp only [not_or] at hc
      rw [Option.map_eq_some_iff] at h
      obtain ⟨m, hm, e⟩ := h
      obtain ⟨rfl, rfl⟩ := Prod.mk.inj e
      have hall : ∀ c ∈ t.takeWhile isDigit, isDigit c = true := by
        have : ∀ l : Bytes, ∀ c ∈ l.takeWhile isDigit, isDigit c = true := by
          intro l
          induction l with
          | nil => simp
          | cons x l ih =>
            intro c hc
            rw [List.takeWhile_cons] at hc
            split at hc
            · rcases List.mem_cons.mp hc with rfl | hc
              · assumption
              · exact ih c hc
            · simp at hc
        exact this t
      obtain ⟨v, hv⟩ := parseNatAux_all _ 0 hall
      rw [parseNatAux_append, hv] at hm
      simp only [Option.bind_some, parseNatAux_trail, Option.some.injEq] at hm
      subst hm
      refine ⟨_, .some _ v hc.1 (by omega) hall hv, ?_⟩
      have hp : ∀ l : Bytes, l = l.takeWhile isDigit ++ l.drop (l.takeWhile isDigit).length := by
        intro l
        induction l with
        | nil => rfl
        | cons x l ih =>
          rw [List.takeWhile_cons]
          split
          · simp only [List.cons_append, List.length_cons, List.drop_succ_cons]; rw [← ih]
          · rfl
      rw [List.cons_append, ← hp]
  · obtain ⟨rfl, rfl⟩ := Prod.mk.inj (Option.some.inj h)
    exact ⟨[], .none, rfl⟩

theorem takeFrac_complete (fr : Bytes) (n : Nat) (h : FracText fr n) (c : UInt8) (r : Bytes) (hc : isDigit c = false) (h46 : c ≠ 46) :
    takeFrac (fr ++ c :: r) = some (n, c :: r) := by
  cases h with
  | none =>
    rw [List.nil_append]
    unfold takeFrac
    split
    · rename_i e; exact absurd (List.cons.inj e).1 h46
    · rfl
  | some ds v h0 h9 hd hv =>
    rw [List.cons_append]
    unfold takeFrac
    simp only
    rw [takeWhile_digits ds r hd c hc, if_neg (by simp only [not_or]; exact ⟨h0, by omega⟩), parseNatAux_append, hv]
    simp only [Option.bind_some, parseNatAux_trail, Option.map_some]
    rw [List.drop_append_of_le_length (Nat.le_refl _), List.drop_length]
    rfl

theorem FracText.lt {fr : Bytes} {n : Nat} (h : FracText fr n) : n < 1000000000 := by
  cases h with
  | none => decide
  | some ds v h0 h9 hd hv =>
    have := (parseNatAux_range _ _ _ hv).2
    have e : (10 : Nat) ^ 9 = 10 ^ ds.length * 10 ^ (9 - ds.length) := by rw [← Nat.pow_add]; congr 1; omega
    have h10 : 0 < 10 ^ (9 - ds.length) := Nat.pos_of_ne_zero (by simp)
    have : v < 10 ^ ds.length := by omega
    calc v * 10 ^ (9 - ds.length) < 10 ^ ds.length * 10 ^ (9 - ds.length) := Nat.mul_lt_mul_of_pos_right this h10
      _ = 1000000000 := by rw [← e]

theorem ZoneText.lt {s : Bytes} {z : Int} (h : ZoneText s z) : -1440 < z ∧ z < 1440 := by
  cases h <;> omega

/-- What is read from a text, in terms of what the text says. -/
theorem parseTime_iff (s : Bytes) (t : Time) : parseTime s = some t ↔ ∃ u off, Says s u off ∧ t = u.shift (-off) := by
  constructor
  · intro h
    unfold parseTime at h
    simp only [Option.bind_eq_bind, Option.bind_eq_some_iff, Prod.exists, takeNum_iff 4 (by decide), takeNum_iff 2 (by decide), takeChar_iff] at h
    obtain ⟨y, _, ⟨hy, rfl⟩, _, rfl, mo, _, ⟨_, rfl⟩, _, rfl, d, _, ⟨_, rfl⟩, _, rfl, hh, _, ⟨_, rfl⟩, _, rfl, mi, _, ⟨_, rfl⟩, _, rfl, se, _, ⟨_, rfl⟩, n, zn, hf, z, hz, h⟩ := h
    split at h
    · rename_i hc
      obtain ⟨c1, c2, c3, c4, c5, c6, c7⟩ := hc
      obtain ⟨fr, hfr, rfl⟩ := takeFrac_sound _ _ _ hf
      rw [zone_iff] at hz
      refine ⟨{ year := y, month := mo, day := d, hour := hh, minute := mi, second := se, nanos := n }, z, ⟨⟨by simp only; omega, by simp only; omega, c1, c2, c3, c4, c5, c6, c7, hfr.lt⟩, fr, zn, hfr, hz, ?_⟩, (Option.some.inj h).symm⟩
      simp only [Int.toNat_natCast, List.append_assoc, List.cons_append]
    · cases h
  · rintro ⟨u, z, ⟨⟨y0, y1, m0, m1, d0, d1, h1, mi1, s1, n1⟩, fr, zn, hfr, hz, rfl⟩, rfl⟩
    obtain ⟨year, month, day, hour, minute, second, nanos⟩ := u
    simp only at y0 y1 m0 m1 d0 d1 h1 mi1 s1 n1 hfr
    obtain ⟨y, rfl⟩ := Int.eq_ofNat_of_zero_le y0
    simp only [Int.toNat_natCast] at d1
    have hd : daysIn y month ≤ 31 := by unfold daysIn; split <;> split <;> omega
    have p2 : ∀ n, n < 100 → (padNat 2 n).length = 2 := fun n hn => padNat2_length hn
    have p4 : (padNat 4 y).length = 4 := padNat_length 4 y (by decide) (by omega)
    obtain ⟨c, r, rfl, hc, h46⟩ := hz.head
    unfold parseTime
    simp only [Int.toNat_natCast, List.append_assoc, List.cons_append]
    rw [takeNum_pad _ _ _ p4]
    simp only [Option.bind_eq_bind, Option.bind_some, takeChar, if_true]
    rw [takeNum_pad _ _ _ (p2 month (by omega))]
    simp only [Option.bind_some, if_true]
    rw [takeNum_pad _ _ _ (p2 day (by omega))]
    simp only [Option.bind_some, if_true]
    rw [takeNum_pad _ _ _ (p2 hour (by omega))]
    simp only [Option.bind_some, if_true]
    rw [takeNum_pad _ _ _ (p2 minute (by omega))]
    simp only [Option.bind_some, if_true]
    rw [takeNum_pad _ _ _ (p2 second (by omega))]
    simp only [Option.bind_some]
    rw [takeFrac_complete _ _ hfr c r hc h46]
    simp only [Option.bind_some]
    rw [(zone_iff _ _).mpr hz]
    simp only [Option.bind_some]
    rw [if_pos ⟨m0, m1, d0, d1, h1, mi1, s1⟩]

theorem Time.Real.inCalendar {t : Time} (h : t.Real) : t.InCalendar := by
  obtain ⟨y0, y1, m0, m1, d0, d1, hc⟩ := h
  exact ⟨m0, m1, d0, by rw [daysIn_mod _ y0]; exact d1, hc⟩

end Verif.Doc
