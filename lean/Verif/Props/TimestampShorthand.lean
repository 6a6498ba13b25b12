import Verif.TimestampShorthand
import Verif.TimestampLemmas
import Verif.Props.Instant
/-!
# C63: timestamps made from local fields and an offset, or from UTC fields
-/
set_option linter.unusedSimpArgs false
namespace Ion.Timestamp
open Ion Ion.DateTime.Spec

/-- The offset, in microseconds: hours and minutes together, each optional; unknown if neither is given. -/
def sumOffset (offHours offMinutes : Option Int) : Option Int :=
  if offHours = none ∧ offMinutes = none then none else some ((offHours.getD 0 * 60 + offMinutes.getD 0) * 60000000)

/-- C63: `timestamp` accepts hours from -23 to 23 and minutes from -59 to 59, each with its own sign, and gives the timestamp with
the given fields and the sum as offset; anything else raises `ValueError`. -/
theorem C63_shorthand (a : TimestampArgs) (offHours offMinutes : Option Int) :
    shorthand a offHours offMinutes =
      if (∀ h ∈ offHours, -23 ≤ h ∧ h ≤ 23) ∧ (∀ m ∈ offMinutes, -59 ≤ m ∧ m ≤ 59) then
        Timestamp.new { a with tz := sumOffset offHours offMinutes }
      else .error .valueError := by
  cases offHours with
  | none =>
    cases offMinutes with
    | none => simp [shorthand, hoursDelta, minutesDelta, sumOffset, bind, Except.bind]
    | some m =>
      by_cases hm : m < -59 ∨ m > 59
      · rw [if_neg (by simp; omega)]
        simp [shorthand, hoursDelta, minutesDelta, bind, Except.bind, hm]
      · rw [if_pos (by simp; omega)]
        simp only [shorthand, hoursDelta, minutesDelta, bind, Except.bind, hm, if_false, offsetTZInfo]
        rw [if_neg (by simp only [minuteMicros, dayMicros]; omega)]
        simp [sumOffset, minuteMicros]
  | some h =>
    by_cases hh : h < -23 ∨ h > 23
    · rw [if_neg (by simp; omega)]
      simp [shorthand, hoursDelta, minutesDelta, bind, Except.bind, hh]
    · cases offMinutes with
      | none =>
        rw [if_pos (by simp; omega)]
        simp only [shorthand, hoursDelta, minutesDelta, bind, Except.bind, hh, if_false, offsetTZInfo]
        rw [if_neg (by simp only [minuteMicros, dayMicros]; omega)]
        simp [sumOffset, minuteMicros]
      | some m =>
        by_cases hm : m < -59 ∨ m > 59
        · rw [if_neg (by simp; omega)]
          simp [shorthand, hoursDelta, minutesDelta, bind, Except.bind, hh, hm]
        · rw [if_pos (by simp; omega)]
          simp only [shorthand, hoursDelta, minutesDelta, bind, Except.bind, hh, hm, if_false, offsetTZInfo]
          rw [if_neg (by simp only [minuteMicros, dayMicros]; omega)]
          have : h * 60 * minuteMicros + m * minuteMicros = (h * 60 + m) * 60000000 := by simp only [minuteMicros]; omega
          simp [sumOffset, this]

/-- C63: every offset of whole minutes within a day can be given. -/
theorem C63_every_offset (off : Int) (h : -1440 < off ∧ off < 1440) :
    ∃ hours minutes, (-23 ≤ hours ∧ hours ≤ 23) ∧ (-59 ≤ minutes ∧ minutes ≤ 59) ∧
      sumOffset (some hours) (some minutes) = some (off * 60000000) := by
  rcases Int.le_total 0 off with h0 | h0
  · refine ⟨off / 60, off % 60, by omega, by omega, ?_⟩
    have h3 : off / 60 * 60 + off % 60 = off := by omega
    simp [sumOffset, h3]
  · refine ⟨-((-off) / 60), -((-off) % 60), by omega, by omega, ?_⟩
    have h3 : -((-off) / 60) * 60 + -((-off) % 60) = off := by omega
    simp only [sumOffset, Option.getD_some, h3]
    simp

/-- The microsecond does not change if whole seconds are added. -/
theorem addMicros_micro {t u : DateTime} {k : Int} (hv : t.Valid) (hk : -86400 < k) (h : t.addMicros (k * 1000000) = .ok u) :
    u.micro = t.micro := by
  obtain ⟨-, -, -, -, -, -, hh, hmi, hs, hmu⟩ := hv
  have htod : t.timeOfDay = (t.hour * 3600 + t.minute * 60 + t.second : Nat) * 1000000 + t.micro := by
    simp only [DateTime.timeOfDay]; omega
  have key : ∀ (date : Nat × Nat × Nat) (j : Int), 0 ≤ t.timeOfDay + j * 1000000 →
      (DateTime.ofDayTime date (t.timeOfDay + j * 1000000) t.tz).micro = t.micro := by
    intro date j h0
    simp only [DateTime.ofDayTime]
    omega
  unfold DateTime.addMicros at h
  have e : dayMicros = 86400000000 := rfl
  simp only at h
  by_cases h0 : t.timeOfDay + k * 1000000 < 0
  · rw [if_pos h0] at h
    split at h
    · cases h
    · simp only [Except.ok.injEq] at h
      subst h
      rw [e, show t.timeOfDay + k * 1000000 + 86400000000 = t.timeOfDay + (k + 86400) * 1000000 by omega]
      exact key _ _ (by omega)
  · rw [if_neg h0] at h
    by_cases h1 : t.timeOfDay + k * 1000000 ≥ dayMicros
    · rw [if_pos h1] at h
      split at h
      · cases h
      · simp only [Except.ok.injEq] at h
        subst h
        rw [e, show t.timeOfDay + k * 1000000 - 86400000000 = t.timeOfDay + (k - 86400) * 1000000 by omega]
        exact key _ _ (by omega)
    · rw [if_neg h1] at h
      simp only [Except.ok.injEq] at h
      subst h
      exact key _ _ (by omega)

/-- C63: `adjust_from_utc_fields`, with an offset of whole seconds within a day, gives a timestamp with that offset, at the instant
that the given fields are in UTC, with the precision and fraction that the constructor would have given; it raises only what the
constructor raises for the UTC fields, or `OverflowError` if the local time is not within the years 1 to 9999. -/
theorem C63_adjust_from_utc (a : TimestampArgs) (k : Int) (htz : a.tz = some (k * 1000000)) (hk : -86400 < k ∧ k < 86400) :
    match Timestamp.new a with
    | .error e => adjustFromUtcFields a = .error e
    | .ok utc => adjustFromUtcFields a = .error .overflowError ∨
        ∃ t, adjustFromUtcFields a = .ok t ∧ t.dt.tz = some (k * 1000000) ∧ instant t.dt - k * 1000000 = instant utc.dt ∧
          t.precision = utc.precision ∧ t.frac = utc.frac ∧ t.fracPrecision = utc.fracPrecision ∧ t.dt.Valid := by
  unfold adjustFromUtcFields
  cases hn : Timestamp.new a with
  | error e => rfl
  | ok utc =>
    obtain ⟨hv, htz', hp, hy, hmo, hd, hh, hmi, hs, hnorm, hidem⟩ := new_inv hn
    simp only [bind, Except.bind, htz', htz]
    by_cases h0 : k * 1000000 = 0
    · rw [if_pos h0]
      exact .inr ⟨utc, rfl, by rw [htz', htz], by omega, rfl, rfl, rfl, hv⟩
    · rw [if_neg h0]
      cases hadd : utc.dt.addMicros (k * 1000000) with
      | error e =>
        refine .inl ?_
        unfold DateTime.addMicros at hadd
        simp only at hadd
        split at hadd
        · split at hadd
          · cases hadd; rfl
          · cases hadd
        · split at hadd
          · split at hadd
            · cases hadd; rfl
            · cases hadd
          · cases hadd
      | ok u =>
        obtain ⟨hi, hut, huv⟩ := DateTime.C08_shift_exact utc.dt u _ hv (by simp only [dayMicros]; omega) hadd
        have hmic := addMicros_micro hv hk.1 hadd
        have hut' : u.tz = some (k * 1000000) := by rw [hut, htz', htz]
        have hnew := new_frac (p := utc.precision) (y := u.year) (mo := u.month) (d := u.day) (ho := u.hour) (mi := u.minute)
          (s := u.second) (us := utc.dt.micro) (tz := some (k * 1000000)) hidem (by rw [← hmic, ← hut']; exact huv)
        refine .inr ⟨_, hnew, rfl, ?_, rfl, rfl, rfl, by rw [← hmic, ← hut']; exact huv⟩
        have : instant ⟨u.year, u.month, u.day, u.hour, u.minute, u.second, utc.dt.micro, some (k * 1000000)⟩ = instant u := by
          simp only [instant, hmic]
        simp only [this]
        omega

/-- 1999-12-31T23:30:01.50Z with the offset +01:30 is 2000-01-01T01:00:01.50+01:30. -/
example : ∃ t, adjustFromUtcFields ⟨1999, 12, 31, 23, 30, 1, none, sumOffset (some 1) (some 30), some .second, none, some ⟨false, 50, -2⟩⟩ = .ok t ∧
    (t.dt.year, t.dt.month, t.dt.day, t.dt.hour, t.dt.minute, t.dt.second) = (2000, 1, 1, 1, 0, 1) ∧ t.dt.tz = some (5400 * 1000000) :=
  ⟨⟨⟨2000, 1, 1, 1, 0, 1, 500000, some 5400000000⟩, some .second, 2, ⟨false, 50, -2⟩⟩, by decide +kernel, rfl, rfl⟩

/-- The signs of hours and minutes are independent: -1 and 30 is half an hour west. -/
example : ∃ t, shorthand { year := 2020, month := 1, day := 1 } (some (-1)) (some 30) = .ok t ∧ t.dt.tz = some (-30 * 60000000) :=
  ⟨⟨⟨2020, 1, 1, 0, 0, 0, 0, some (-1800000000)⟩, none, 0, ⟨false, 0, 0⟩⟩, by decide +kernel, rfl⟩

end Ion.Timestamp
