import Verif.Lemmas.Zoned
import Verif.Props.Sign
/-
C76: timestamps with time zones.
-/
set_option autoImplicit false
namespace Verif.Doc

/-- Reading a timestamp gives `t` iff the text says that clocks `off` minutes ahead of Greenwich show some date and time, and `t` is
the date and time of the calendar, in Greenwich, of that instant. -/
theorem C76_read (s : Bytes) (t : Time) :
    parseTime s = some t ↔ ∃ u off, Says s u off ∧ t.InCalendar ∧ t.seconds = u.seconds - 60 * off ∧ t.nanos = u.nanos := by
  rw [parseTime_iff]
  constructor
  · rintro ⟨u, off, h, rfl⟩
    have hz : -1440 < off ∧ off < 1440 := by obtain ⟨_, _, _, _, hz, _⟩ := h; exact hz.lt
    obtain ⟨h1, h2, h3⟩ := u.shift_spec h.1.inCalendar (-off) (by omega) (by omega)
    exact ⟨u, off, h, h1, by omega, h3⟩
  · rintro ⟨u, off, h, h1, h2, h3⟩
    have hz : -1440 < off ∧ off < 1440 := by obtain ⟨_, _, _, _, hz, _⟩ := h; exact hz.lt
    obtain ⟨g1, g2, g3⟩ := u.shift_spec h.1.inCalendar (-off) (by omega) (by omega)
    exact ⟨u, off, h, t.seconds_inj _ h1 g1 (by omega) (by rw [h3, g3])⟩

/-- Two texts are read as the same timestamp iff they say the same instant. -/
theorem C76_same_instant (s s' : Bytes) (u u' : Time) (off off' : Int) (h : Says s u off) (h' : Says s' u' off') :
    parseTime s = parseTime s' ↔ u.seconds - 60 * off = u'.seconds - 60 * off' ∧ u.nanos = u'.nanos := by
  have hz : -1440 < off ∧ off < 1440 := by obtain ⟨_, _, _, _, hz, _⟩ := h; exact hz.lt
  have hz' : -1440 < off' ∧ off' < 1440 := by obtain ⟨_, _, _, _, hz, _⟩ := h'; exact hz.lt
  rw [(parseTime_iff s _).mpr ⟨u, off, h, rfl⟩, (parseTime_iff s' _).mpr ⟨u', off', h', rfl⟩]
  obtain ⟨a1, a2, a3⟩ := u.shift_spec h.1.inCalendar (-off) (by omega) (by omega)
  obtain ⟨b1, b2, b3⟩ := u'.shift_spec h'.1.inCalendar (-off') (by omega) (by omega)
  constructor
  · intro e
    have e := Option.some.inj e
    rw [e] at a2 a3
    exact ⟨by omega, by rw [← a3, b3]⟩
  · rintro ⟨e1, e2⟩
    exact congrArg some (Time.seconds_inj _ _ a1 b1 (by omega) (by rw [a3, b3, e2]))

theorem stripZeros_digits (s : Bytes) (h : ∀ c ∈ s, isDigit c = true) : ∀ c ∈ stripZeros s, isDigit c = true := by
  obtain ⟨k, hk⟩ := stripZeros_pad s
  intro c hc
  exact h c (by rw [hk]; simp [hc])

theorem fracText_says (n : Nat) (h : n < 1000000000) : FracText (fracText n) n := by
  have hr := takeFrac_text n h []
  unfold fracText at *
  split at hr
  · rename_i e; subst e; exact .none
  · rename_i hn
    rw [if_neg hn]
    obtain ⟨fr, hf, e⟩ := takeFrac_sound _ _ _ hr
    have : (46 :: stripZeros (padNat 9 n)) = fr := List.append_cancel_right e
    rw [this]; exact hf

theorem zoneText_says (off : Int) (h1 : -1440 < off) (h2 : off < 1440) : ZoneText (zoneText off) off := by
  unfold zoneText
  split
  · rename_i e; subst e; exact .utc
  · split
    · have := ZoneText.west (off.natAbs / 60) (off.natAbs % 60) (by omega) (by omega)
      rw [show -(((off.natAbs / 60 : Nat) : Int) * 60 + ((off.natAbs % 60 : Nat) : Int)) = off by omega] at this
      exact this
    · have := ZoneText.east (off.natAbs / 60) (off.natAbs % 60) (by omega) (by omega)
      rw [show (((off.natAbs / 60 : Nat) : Int) * 60 + ((off.natAbs % 60 : Nat) : Int)) = off by omega] at this
      exact this

/-- A timestamp written in a zone says what clocks there show at that instant, and is read back as the same instant. -/
theorem C76_write (off : Int) (t : Time) (s : Bytes) (ht : t.InCalendar) (h1 : -1440 < off) (h2 : off < 1440) (h : encTimeIn off t = some s) :
    (∃ u, Says s u off ∧ u.seconds = t.seconds + 60 * off ∧ u.nanos = t.nanos) ∧ parseTime s = some t := by
  obtain ⟨g1, g2, g3⟩ := t.shift_spec ht off h1 h2
  have hu : Says s (t.shift off) off := by
    unfold encTimeIn at h
    simp only at h
    split at h
    · rename_i hy
      have fy : fmtYear (t.shift off).year = padNat 4 (t.shift off).year.toNat := by
        unfold fmtYear; rw [if_neg (by omega)]
      rw [fy] at h
      obtain ⟨c1, c2, c3, c4, c5⟩ := g1
      rw [daysIn_mod _ hy.1] at c4
      exact ⟨⟨hy.1, hy.2, c1, c2, c3, c4, c5⟩, _, _, fracText_says _ c5.2.2.2, zoneText_says off h1 h2, (Option.some.inj h).symm⟩
    · cases h
  exact ⟨⟨_, hu, g2, g3⟩, (C76_read s t).mpr ⟨_, off, hu, ht, by omega, g3.symm⟩⟩

/-- Writing is refused iff it is no year from 0 to 9999 where the clock stands; in Greenwich nothing changes. -/
theorem C76_refused (off : Int) (t : Time) (ht : t.InCalendar) (h1 : -1440 < off) (h2 : off < 1440) :
    encTimeIn off t = none ↔ ∀ u : Time, u.InCalendar → u.seconds = t.seconds + 60 * off → u.nanos = t.nanos → u.year < 0 ∨ 9999 < u.year := by
  obtain ⟨g1, g2, g3⟩ := t.shift_spec ht off h1 h2
  unfold encTimeIn
  simp only
  split
  · rename_i hy
    constructor
    · intro h; cases h
    · intro h
      have := h _ g1 g2 g3
      omega
  · rename_i hy
    refine ⟨fun _ u hu hs hn => ?_, fun _ => rfl⟩
    rw [Time.seconds_inj u _ hu g1 (by omega) (by rw [hn, g3])]
    omega

/-- In Greenwich this is the writing of the other properties. -/
theorem C76_utc (t : Time) (ht : t.InCalendar) : encTimeIn 0 t = encTime t := by
  unfold encTimeIn encTime
  simp only [t.shift_zero ht]
  rfl

/-- Datasets whose commits were read from texts of the same instant, in whatever zones, are signed alike. -/
theorem C76_signed (d : Dataset) (c : Commit) (s s' : Bytes) (t t' u u' : Time) (off off' : Int) (h : Says s u off) (h' : Says s' u' off')
    (ht : parseTime s = some t) (ht' : parseTime s' = some t')
    (he : u.seconds - 60 * off = u'.seconds - 60 * off') (hn : u.nanos = u'.nanos) :
    ({ d with commit := some { c with timestamp := t } } : Dataset).signingBytes =
      ({ d with commit := some { c with timestamp := t' } } : Dataset).signingBytes := by
  have := (C76_same_instant s s' u u' off off' h h').mpr ⟨he, hn⟩
  rw [ht, ht'] at this
  rw [Option.some.inj this]

example : parseTime b!"2021-01-01T00:15:00.25+05:30" = some { year := 2020, month := 12, day := 31, hour := 18, minute := 45, nanos := 250000000 } := by decide +kernel
example : parseTime b!"2024-02-28T23:00:00-02:00" = some { year := 2024, month := 2, day := 29, hour := 1 } := by decide +kernel
example : parseTime b!"2023-02-28T23:00:00-02:00" = parseTime b!"2023-03-01T01:00:00Z" := by decide +kernel
example : encTimeIn 330 { year := 2020, month := 12, day := 31, hour := 18, minute := 45 } = some b!"2021-01-01T00:15:00+05:30" := by decide +kernel
example : encTimeIn (-60) { year := 0, month := 1, day := 1 } = none := by decide +kernel
example : Time.seconds { year := 1970 } = 62167219200 ∧ Time.seconds { year := 2001, month := 9, day := 9, hour := 1, minute := 46, second := 40 } = 62167219200 + 1000000000 := by decide +kernel

end Verif.Doc
