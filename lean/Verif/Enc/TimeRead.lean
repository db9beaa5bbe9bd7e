import Verif.Enc.DurText
/-!
# Reading times (C139)

What the reader of `Rfc3339` accepts: only dates of the calendar, stated with day numbers that do not use `daysIn`, and texts that mean what RFC 3339 says.
-/
set_option autoImplicit false
namespace Verif.Enc.TimeRead
open Verif.Strconv Verif.Enc Verif.Enc.Rfc3339 Verif.Enc.DurText

/-- The number of a day in the Gregorian calendar. The year begins in March, so that the leap day is its last one; the lengths of the months repeat after five of them, 153 days. Specification. -/
def dayNo (y : Int) (m d : Nat) : Int :=
  let y' := if m ≤ 2 then y - 1 else y
  let m' := if m ≤ 2 then m + 9 else m - 3
  365 * y' + y' / 4 - y' / 100 + y' / 400 + ((153 * m' + 2) / 5 : Nat) + d

theorem num_range (s : Str) (lo hi n : Nat) (h : num s lo hi = some n) : lo ≤ n ∧ n ≤ hi := by
  unfold num at h
  split at h
  · split at h
    · injection h with h; subst h; assumption
    · cases h
  · cases h

theorem nanos_lt (ds : Str) : nanos ds < 1000000000 := by
  unfold nanos
  cases hd : digitsVal 0 (ds.take 9) with
  | none => simp
  | some n =>
    have h1 := digitsVal_lt _ _ _ hd
    have h2 : (ds.take 9).length ≤ 9 := by simp; omega
    rw [Option.getD_some]
    generalize (ds.take 9).length = k at h1 h2
    have h3 : n * 10 ^ (9 - k) < 10 ^ k * 10 ^ (9 - k) := Nat.mul_lt_mul_of_pos_right (by simpa using h1) (Nat.pow_pos (by decide))
    rw [← Nat.pow_add, show k + (9 - k) = 9 by omega] at h3
    exact h3

theorem parseFrac_lt (s : Str) : (parseFrac s).1 < 1000000000 := by
  unfold parseFrac
  split
  · dsimp only
    split
    · exact (by decide : 0 < 1000000000)
    · exact nanos_lt _
  · exact (by decide : 0 < 1000000000)

theorem parseZone_range (s : Str) (off : Int) (h : parseZone s = some off) : (-86400 < off ∧ off < 86400) ∧ off % 60 = 0 := by
  unfold parseZone at h
  split at h
  · injection h with h; subst h; decide
  · split at h
    · rename_i hh mm e1 e2
      have r1 := num_range _ _ _ _ e1
      have r2 := num_range _ _ _ _ e2
      split at h
      · injection h with h; subst h; split <;> omega
      · cases h
    · cases h
  · cases h

/-- C139: whatever is read as a time is a date of the calendar and a time of the day, in a zone of whole minutes under a day and a year of four digits. -/
theorem C139_valid (s : Str) (t : Civil) (h : parse s = some t) : Portable t := by
  unfold parse at h
  split at h
  · split at h
    · rename_i y mo ey emo
      split at h
      · rename_i d hh mi sec ed eh em es
        split at h
        · dsimp only at h
          split at h
          · rename_i off eo
            injection h with h; subst h
            have r1 := num_range _ _ _ _ ey
            have r2 := num_range _ _ _ _ emo
            have r3 := num_range _ _ _ _ ed
            have r4 := num_range _ _ _ _ eh
            have r5 := num_range _ _ _ _ em
            have r6 := num_range _ _ _ _ es
            have r7 := parseZone_range _ _ eo
            refine ⟨⟨r2, r3, ?_, ?_, ?_, parseFrac_lt _, r7.1⟩, ?_, ?_, r7.2⟩ <;> simp only <;> omega
          · cases h
        · cases h
      · cases h
    · cases h
  · cases h

/-- C139: reading, writing and reading again gives the same time. -/
theorem C139_stable (s : Str) (t : Civil) (h : parse s = some t) : parse (fmt t) = some t := portable_parse t (C139_valid s t h)

/-- C139: `daysIn` is the calendar's: the first day of the next month, or of the next year, has the number of the day after the last one of the month, and no day of a month has the number of a day of
another. -/
theorem C139_calendar (y : Int) (m : Nat) (h : 1 ≤ m ∧ m ≤ 12) :
    (if m = 12 then dayNo (y + 1) 1 1 else dayNo y (m + 1) 1) = dayNo y m (daysIn m y) + 1 := by
  obtain ⟨h1, h2⟩ := h
  have : m = 1 ∨ m = 2 ∨ m = 3 ∨ m = 4 ∨ m = 5 ∨ m = 6 ∨ m = 7 ∨ m = 8 ∨ m = 9 ∨ m = 10 ∨ m = 11 ∨ m = 12 := by omega
  rcases this with h | h | h | h | h | h | h | h | h | h | h | h <;> subst h <;> simp [dayNo, daysIn] <;> (try split) <;> omega

/-- The days before a year that begins in March. -/
def yearNo (y : Int) : Int := 365 * y + y / 4 - y / 100 + y / 400

theorem yearNo_mono (a b : Int) (h : a < b) : yearNo (a + 1) ≤ yearNo b := by unfold yearNo; omega

theorem dayNo_year (y : Int) (m d : Nat) (hm : 1 ≤ m ∧ m ≤ 12) (hd : 1 ≤ d ∧ d ≤ daysIn m y) :
    let y' := if m ≤ 2 then y - 1 else y
    yearNo y' < dayNo y m d ∧ dayNo y m d ≤ yearNo (y' + 1) := by
  obtain ⟨h1, h2⟩ := hm
  have : m = 1 ∨ m = 2 ∨ m = 3 ∨ m = 4 ∨ m = 5 ∨ m = 6 ∨ m = 7 ∨ m = 8 ∨ m = 9 ∨ m = 10 ∨ m = 11 ∨ m = 12 := by omega
  rcases this with h | h | h | h | h | h | h | h | h | h | h | h <;> subst h <;> simp [dayNo, daysIn, yearNo] at hd ⊢ <;> (try split at hd) <;> omega

theorem dayNo_month (y : Int) (m d : Nat) (hm : 1 ≤ m ∧ m ≤ 12) (hd : 1 ≤ d ∧ d ≤ daysIn m y) :
    let m' := if m ≤ 2 then m + 9 else m - 3
    let y' := if m ≤ 2 then y - 1 else y
    m' ≤ 11 ∧ dayNo y m d - yearNo y' = ((153 * m' + 2) / 5 + d : Nat) ∧ (m' < 11 → (153 * m' + 2) / 5 + d ≤ (153 * (m' + 1) + 2) / 5) := by
  obtain ⟨h1, h2⟩ := hm
  have : m = 1 ∨ m = 2 ∨ m = 3 ∨ m = 4 ∨ m = 5 ∨ m = 6 ∨ m = 7 ∨ m = 8 ∨ m = 9 ∨ m = 10 ∨ m = 11 ∨ m = 12 := by omega
  rcases this with h | h | h | h | h | h | h | h | h | h | h | h <;> subst h <;> simp [dayNo, daysIn, yearNo] at hd ⊢ <;> (try split at hd) <;> omega

theorem months_apart (a b d e : Nat) (ha : a ≤ 11) (hb : b ≤ 11) (h : a < b) (hd : a < 11 → (153 * a + 2) / 5 + d ≤ (153 * (a + 1) + 2) / 5) (he : 1 ≤ e) :
    (153 * a + 2) / 5 + d < (153 * b + 2) / 5 + e := by omega

/-- C139: no two days of the calendar have the same number. -/
theorem C139_days (y y' : Int) (m m' d d' : Nat) (hm : 1 ≤ m ∧ m ≤ 12) (hd : 1 ≤ d ∧ d ≤ daysIn m y) (hm' : 1 ≤ m' ∧ m' ≤ 12) (hd' : 1 ≤ d' ∧ d' ≤ daysIn m' y')
    (h : dayNo y m d = dayNo y' m' d') : y = y' ∧ m = m' ∧ d = d' := by
  have a1 := dayNo_year y m d hm hd
  have a2 := dayNo_year y' m' d' hm' hd'
  have b1 := dayNo_month y m d hm hd
  have b2 := dayNo_month y' m' d' hm' hd'
  dsimp only at a1 a2 b1 b2
  rw [h] at a1 b1
  have hy : (if m ≤ 2 then y - 1 else y) = (if m' ≤ 2 then y' - 1 else y') := by
    generalize (if m ≤ 2 then y - 1 else y) = p at *
    generalize (if m' ≤ 2 then y' - 1 else y') = q at *
    rcases Int.lt_trichotomy p q with hpq | hpq | hpq
    · have := yearNo_mono _ _ hpq; omega
    · exact hpq
    · have := yearNo_mono _ _ hpq; omega
  rw [hy] at b1
  have hs : (153 * (if m ≤ 2 then m + 9 else m - 3) + 2) / 5 + d = (153 * (if m' ≤ 2 then m' + 9 else m' - 3) + 2) / 5 + d' := by
    have := b1.2.1.symm.trans b2.2.1; exact_mod_cast this
  have hmm : (if m ≤ 2 then m + 9 else m - 3) = (if m' ≤ 2 then m' + 9 else m' - 3) := by
    rcases Nat.lt_trichotomy (if m ≤ 2 then m + 9 else m - 3) (if m' ≤ 2 then m' + 9 else m' - 3) with hpq | hpq | hpq
    · have := months_apart _ _ d d' b1.1 b2.1 hpq b1.2.2 hd'.1; omega
    · exact hpq
    · have := months_apart _ _ d' d b2.1 b1.1 hpq b2.2.2 hd.1; omega
  have hm2 : m = m' := by split at hmm <;> split at hmm <;> omega
  subst hm2
  refine ⟨?_, rfl, by omega⟩
  split at hy <;> omega

/-- C139: two texts read as times of one zone mean the same instant, to the nanosecond, only if they are read as the same time. -/
theorem C139_instant (s s' : Str) (t t' : Civil) (h : parse s = some t) (h' : parse s' = some t') (ho : t.off = t'.off) (hn : t.nano = t'.nano)
    (hi : instant dayNo t = instant dayNo t') : t = t' := by
  obtain ⟨v, _⟩ := C139_valid s t h
  obtain ⟨v', _⟩ := C139_valid s' t' h'
  have := v.hour; have := v.min; have := v.sec
  have := v'.hour; have := v'.min; have := v'.sec
  simp only [instant] at hi
  have hday : dayNo t.year t.month t.day = dayNo t'.year t'.month t'.day := by omega
  obtain ⟨e1, e2, e3⟩ := C139_days _ _ _ _ _ _ v.month v.day v'.month v'.day hday
  rcases t with ⟨y, m, d, a, b, c, n, o⟩
  rcases t' with ⟨y', m', d', a', b', c', n', o'⟩
  dsimp only at *
  subst e1 e2 e3 ho hn
  have : a = a' ∧ b = b' ∧ c = c' := by omega
  simp [this]

example : dayNo 2024 3 1 = dayNo 2024 2 29 + 1 ∧ dayNo 1970 1 1 - dayNo 1 1 1 = 719162 := by decide
example : ∃ t, parse (lit "2024-12-31T23:59:59.5-02:00") = some t ∧ instant dayNo t = dayNo 2025 1 1 * 86400 + 7199 := ⟨_, rfl, by decide⟩

end Verif.Enc.TimeRead
