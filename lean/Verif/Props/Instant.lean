import Verif.TimestampLemmas
set_option linter.unusedSimpArgs false
/-!
# Property C08 (part): shifting a time by its offset is exact in the Gregorian calendar
-/
namespace Ion.DateTime.Spec
open Ion

/-- Days before the month in a common year. -/
def daysBefore : Nat → Int
  | 1 => 0 | 2 => 31 | 3 => 59 | 4 => 90 | 5 => 120 | 6 => 151 | 7 => 181 | 8 => 212 | 9 => 243 | 10 => 273 | 11 => 304
  | 12 => 334 | _ => 0

/-- 1 after the end of February in a leap year of the Gregorian calendar. -/
def leapDay (y m : Nat) : Int :=
  if 2 < m ∧ y % 4 = 0 ∧ (y % 100 ≠ 0 ∨ y % 400 = 0) then 1 else 0

/-- Number of the day in the proleptic Gregorian calendar (0001-01-01 is day 1). -/
def dayNumber (y m d : Nat) : Int :=
  365 * (y - 1 : Int) + (y - 1 : Int) / 4 - (y - 1 : Int) / 100 + (y - 1 : Int) / 400 + daysBefore m + leapDay y m + d

/-- Microseconds since the beginning of day 0 (local time). -/
def instant (t : DateTime) : Int :=
  dayNumber t.year t.month t.day * 86400000000 + t.hour * 3600000000 + t.minute * 60000000 + t.second * 1000000 + t.micro

end Ion.DateTime.Spec
namespace Ion.DateTime
open Ion Spec

theorem dayNumber_next {y m d y' m' d' : Nat} (hm1 : 1 ≤ m) (hm : m ≤ 12) (hd1 : 1 ≤ d) (hd : d ≤ daysInMonth y m)
    (h : nextDay y m d = some (y', m', d')) : dayNumber y' m' d' = dayNumber y m d + 1 := by
  unfold nextDay at h
  split at h
  · simp only [Option.some.injEq, Prod.mk.injEq] at h
    obtain ⟨rfl, rfl, rfl⟩ := h
    simp only [dayNumber]; omega
  · have hd' : d = daysInMonth y m := by omega
    split at h
    · simp only [Option.some.injEq, Prod.mk.injEq] at h
      obtain ⟨rfl, rfl, rfl⟩ := h
      subst hd'
      have : m = 1 ∨ m = 2 ∨ m = 3 ∨ m = 4 ∨ m = 5 ∨ m = 6 ∨ m = 7 ∨ m = 8 ∨ m = 9 ∨ m = 10 ∨ m = 11 := by omega
      by_cases hl : y % 4 = 0 ∧ (y % 100 ≠ 0 ∨ y % 400 = 0)
      · have hb : isLeap y = true := by simp [isLeap]; omega
        rcases this with rfl | rfl | rfl | rfl | rfl | rfl | rfl | rfl | rfl | rfl | rfl <;>
          simp [dayNumber, daysInMonth, daysBefore, leapDay, hl, hb] <;> omega
      · have hb : isLeap y = false := by
          cases h : isLeap y with
          | false => rfl
          | true => simp [isLeap] at h; exact absurd (by omega) hl
        have hk : ∀ k, leapDay y k = 0 := by intro k; simp only [leapDay]; rw [if_neg]; exact fun h => hl h.2
        rcases this with rfl | rfl | rfl | rfl | rfl | rfl | rfl | rfl | rfl | rfl | rfl <;>
          simp [dayNumber, daysInMonth, daysBefore, hk, hb] <;> omega
    · split at h
      · simp only [Option.some.injEq, Prod.mk.injEq] at h
        obtain ⟨rfl, rfl, rfl⟩ := h
        have : m = 12 := by omega
        subst this
        subst hd'
        simp only [dayNumber, daysInMonth, daysBefore, leapDay]
        split <;> split <;> first | omega | (simp; omega)
      · cases h

theorem next_of_prev {y m d y' m' d' : Nat} (hy : 1 ≤ y) (hy9 : y ≤ 9999) (hm1 : 1 ≤ m) (hm : m ≤ 12) (hd1 : 1 ≤ d) (hd : d ≤ daysInMonth y m)
    (h : prevDay y m d = some (y', m', d')) :
    nextDay y' m' d' = some (y, m, d) ∧ 1 ≤ m' ∧ m' ≤ 12 ∧ 1 ≤ d' ∧ d' ≤ daysInMonth y' m' ∧ 1 ≤ y' := by
  unfold prevDay at h
  split at h
  · simp only [Option.some.injEq, Prod.mk.injEq] at h
    obtain ⟨rfl, rfl, rfl⟩ := h
    refine ⟨?_, by omega, by omega, by omega, by omega, by omega⟩
    rw [nextDay, if_pos (by omega)]
    simp; omega
  · split at h
    · simp only [Option.some.injEq, Prod.mk.injEq] at h
      obtain ⟨rfl, rfl, rfl⟩ := h
      have h1 : 28 ≤ daysInMonth y (m - 1) := by unfold daysInMonth; split <;> split <;> omega
      refine ⟨?_, by omega, by omega, by omega, by omega, by omega⟩
      rw [nextDay, if_neg (by omega), if_pos (by omega)]
      simp; omega
    · split at h
      · simp only [Option.some.injEq, Prod.mk.injEq] at h
        obtain ⟨rfl, rfl, rfl⟩ := h
        refine ⟨?_, by omega, by omega, by omega, by simp [daysInMonth], by omega⟩
        rw [nextDay, if_neg (by simp [daysInMonth]), if_neg (by omega), if_pos (by omega)]
        simp; omega
      · cases h

/-- **C08** (instants) Shifting a valid time by less than a day (as the writer does to reach UTC and the reader to come
back) moves it by exactly that much in the Gregorian calendar, keeps the offset and gives a valid time. -/
theorem C08_shift_exact (t u : DateTime) (delta : Int) (hv : t.Valid) (hd : -dayMicros < delta ∧ delta < dayMicros)
    (h : t.addMicros delta = .ok u) : instant u = instant t + delta ∧ u.tz = t.tz ∧ u.Valid := by
  obtain ⟨hy, hy9, hm1, hm, hd1, hdd, hh, hmi, hs, hmu⟩ := hv
  have htod : t.timeOfDay = t.hour * 3600000000 + t.minute * 60000000 + t.second * 1000000 + t.micro := by
    simp only [timeOfDay]; omega
  have hof : ∀ (date : Nat × Nat × Nat) (x : Int), 0 ≤ x → x < dayMicros →
      instant (ofDayTime date x t.tz) = dayNumber date.1 date.2.1 date.2.2 * 86400000000 + x ∧
      (ofDayTime date x t.tz).hour < 24 ∧ (ofDayTime date x t.tz).minute < 60 ∧ (ofDayTime date x t.tz).second < 60 ∧
      (ofDayTime date x t.tz).micro < 1000000 := by
    intro date x h0 h1
    obtain ⟨n, rfl⟩ : ∃ n : Nat, x = n := ⟨x.toNat, by omega⟩
    simp only [dayMicros] at h1
    simp only [instant, ofDayTime, Int.toNat_natCast]
    refine ⟨by omega, by omega, by omega, by omega, by omega⟩
  simp only [dayMicros] at hd hof
  have e0 : instant t = dayNumber t.year t.month t.day * 86400000000 + t.timeOfDay := by simp only [instant, htod]; omega
  unfold addMicros at h
  simp only at h
  split at h
  · split at h
    · cases h
    · rename_i date hp
      simp only [Except.ok.injEq] at h
      subst h
      obtain ⟨y', m', d'⟩ := date
      obtain ⟨hn, a1, a2, a3, a4, a5⟩ := next_of_prev hy hy9 hm1 hm hd1 hdd hp
      have := dayNumber_next a1 a2 a3 a4 hn
      have hyy : y' ≤ 9999 := by
        unfold prevDay at hp
        split at hp
        · simp at hp; omega
        · split at hp
          · simp at hp; omega
          · split at hp
            · simp at hp; omega
            · cases hp
      obtain ⟨b0, b1, b2, b3, b4⟩ := hof (y', m', d') (t.timeOfDay + delta + dayMicros) (by simp only [dayMicros]; omega) (by simp only [dayMicros]; omega)
      refine ⟨?_, rfl, ⟨a5, hyy, a1, a2, a3, a4, b1, b2, b3, b4⟩⟩
      rw [b0, e0]; simp only [dayMicros]; omega
  · split at h
    · split at h
      · cases h
      · rename_i date hp
        simp only [Except.ok.injEq] at h
        subst h
        obtain ⟨y', m', d'⟩ := date
        have := dayNumber_next hm1 hm hd1 hdd hp
        obtain ⟨b0, b1, b2, b3, b4⟩ := hof (y', m', d') (t.timeOfDay + delta - dayMicros) (by simp only [dayMicros] at *; omega) (by simp only [dayMicros]; omega)
        refine ⟨?_, rfl, ?_⟩
        · rw [b0, e0]; simp only [dayMicros]; omega
        · have h28 : ∀ y m, 28 ≤ daysInMonth y m := by intro y m; unfold daysInMonth; split <;> split <;> omega
          have hlow : 1 ≤ y' ∧ y' ≤ 9999 ∧ 1 ≤ m' ∧ m' ≤ 12 ∧ 1 ≤ d' ∧ d' ≤ daysInMonth y' m' := by
            unfold nextDay at hp
            split at hp
            · simp only [Option.some.injEq, Prod.mk.injEq] at hp
              obtain ⟨rfl, rfl, rfl⟩ := hp; omega
            · split at hp
              · simp only [Option.some.injEq, Prod.mk.injEq] at hp
                obtain ⟨rfl, rfl, rfl⟩ := hp
                have := h28 t.year (t.month + 1); omega
              · split at hp
                · simp only [Option.some.injEq, Prod.mk.injEq] at hp
                  obtain ⟨rfl, rfl, rfl⟩ := hp
                  have := h28 (t.year + 1) 1; omega
                · cases hp
          obtain ⟨c1, c2, c3, c4, c5, c6⟩ := hlow
          exact ⟨c1, c2, c3, c4, c5, c6, b1, b2, b3, b4⟩
    · simp only [Except.ok.injEq] at h
      subst h
      obtain ⟨b0, b1, b2, b3, b4⟩ := hof (t.year, t.month, t.day) (t.timeOfDay + delta) (by omega) (by simp only [dayMicros] at *; omega)
      refine ⟨?_, rfl, ⟨hy, hy9, hm1, hm, hd1, hdd, b1, b2, b3, b4⟩⟩
      rw [b0, e0]; simp only; omega

/-- Across a leap day: 2000-03-01T00:30+01:00 is 2000-02-29T23:30Z. -/
example : (⟨2000, 3, 1, 0, 30, 0, 0, some 3600000000⟩ : DateTime).addMicros (-3600000000)
    = .ok ⟨2000, 2, 29, 23, 30, 0, 0, some 3600000000⟩ := by decide

end Ion.DateTime
