import Verif.Model.TimeText
/-
What the text of a time with a zone denotes: an instant, counted in seconds on the proleptic Gregorian calendar,
defined without the day arithmetic of the model.
-/
set_option autoImplicit false
namespace Verif.Doc


/-- a date of the Gregorian calendar, in any year -/
def Time.InCalendar (t : Time) : Prop :=
  1 ≤ t.month ∧ t.month ≤ 12 ∧ 1 ≤ t.day ∧ t.day ≤ daysIn (t.year % 400).toNat t.month ∧ t.hour < 24 ∧ t.minute < 60 ∧ t.second < 60 ∧ t.nanos < 1000000000

/-- days from the beginning of the year to the beginning of a month -/
def daysBefore (leap : Bool) : Nat → Int
  | 0 | 1 => 0
  | 2 => 31
  | m => ([59, 90, 120, 151, 181, 212, 243, 273, 304, 334] : List Int).getD (m - 3) 0 + if leap then 1 else 0

/-- February has 29 days -/
def leapYear (y : Int) : Bool := y % 4 = 0 ∧ (y % 100 ≠ 0 ∨ y % 400 = 0)

/-- days since January 1 of year 0 -/
def Time.dayNumber (t : Time) : Int :=
  365 * t.year + (t.year + 3) / 4 - (t.year + 99) / 100 + (t.year + 399) / 400 + daysBefore (leapYear t.year) t.month + t.day - 1

/-- seconds since the beginning of year 0 -/
def Time.seconds (t : Time) : Int := ((t.dayNumber * 24 + t.hour) * 60 + t.minute) * 60 + t.second

/-- a fraction of a second: nothing, or a point and one to nine digits; in nanoseconds -/
inductive FracText : Bytes → Nat → Prop
  | none : FracText [] 0
  | some (ds : Bytes) (v : Nat) (h0 : ds ≠ []) (h9 : ds.length ≤ 9) (hd : ∀ c ∈ ds, isDigit c = true)
      (hv : parseNatAux 0 ds = some v) : FracText (46 :: ds) (v * 10 ^ (9 - ds.length))

/-- a zone: `Z`, or a sign, hours and minutes; in minutes east of Greenwich -/
inductive ZoneText : Bytes → Int → Prop
  | utc : ZoneText [90] 0
  | east (h m : Nat) (hh : h < 24) (hm : m < 60) : ZoneText (43 :: padNat 2 h ++ 58 :: padNat 2 m) (h * 60 + m)
  | west (h m : Nat) (hh : h < 24) (hm : m < 60) : ZoneText (45 :: padNat 2 h ++ 58 :: padNat 2 m) (-(h * 60 + m))

/-- the text says: clocks that are so many minutes ahead of Greenwich show this date and time -/
def Says (s : Bytes) (u : Time) (off : Int) : Prop :=
  u.Real ∧ ∃ fr zn, FracText fr u.nanos ∧ ZoneText zn off ∧
    s = padNat 4 u.year.toNat ++ 45 :: padNat 2 u.month ++ 45 :: padNat 2 u.day ++ 84 :: padNat 2 u.hour ++ 58 :: padNat 2 u.minute ++
      58 :: padNat 2 u.second ++ fr ++ zn

end Verif.Doc
