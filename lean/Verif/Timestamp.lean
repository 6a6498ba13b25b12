import Verif.Decimal
/-!
# Timestamps

Models `Timestamp` of `amazon/ion/core.py:316-561` and the part of Python's `datetime` that it uses.

Simplifications: constructor arguments that do not fit a C `int` raise `ValueError` here (`OverflowError` in CPython);
an offset is the `utcoffset` of the time zone, in microseconds (time zones whose offset varies with the time are not
modelled); a fractional-seconds argument is a finite decimal.
-/
namespace Ion

/-- `core.py:346-352 TimestampPrecision`. -/
inductive Precision where
  | year | month | day | minute | second
  deriving DecidableEq, Repr, Inhabited

namespace Precision
/-- The enum's integer values. -/
def toNat : Precision → Nat | .year => 0 | .month => 1 | .day => 2 | .minute => 3 | .second => 4
/-- `core.py:355-357 includes_month` -/
def includesMonth (p : Precision) : Bool := 1 ≤ p.toNat
/-- `core.py:360-362 includes_day` -/
def includesDay (p : Precision) : Bool := 2 ≤ p.toNat
/-- `core.py:365-367 includes_minute` -/
def includesMinute (p : Precision) : Bool := 3 ≤ p.toNat
/-- `core.py:370-372 includes_second` -/
def includesSecond (p : Precision) : Bool := 4 ≤ p.toNat
end Precision

/-! ## `datetime` (runtime) -/

/-- Proleptic Gregorian leap years. -/
def isLeap (y : Nat) : Bool := y % 4 = 0 && (y % 100 ≠ 0 || y % 400 = 0)

/-- Days of a month. -/
def daysInMonth (y m : Nat) : Nat :=
  if m = 2 then (if isLeap y then 29 else 28)
  else if m = 4 ∨ m = 6 ∨ m = 9 ∨ m = 11 then 30 else 31

/-- A `datetime.datetime`; `tz` is the UTC offset in microseconds, `none` for a naive one. -/
structure DateTime where
  year : Nat
  month : Nat
  day : Nat
  hour : Nat
  minute : Nat
  second : Nat
  micro : Nat
  tz : Option Int
  deriving DecidableEq, Repr, Inhabited

/-- One day, in microseconds. -/
def dayMicros : Int := 86400000000
/-- One minute, in microseconds. -/
def minuteMicros : Int := 60000000

namespace DateTime

/-- Field ranges enforced by the `datetime` constructor. -/
def Valid (d : DateTime) : Prop :=
  1 ≤ d.year ∧ d.year ≤ 9999 ∧ 1 ≤ d.month ∧ d.month ≤ 12 ∧ 1 ≤ d.day ∧ d.day ≤ daysInMonth d.year d.month ∧
  d.hour < 24 ∧ d.minute < 60 ∧ d.second < 60 ∧ d.micro < 1000000

instance (d : DateTime) : Decidable d.Valid := by unfold Valid; infer_instance

/-- The day after, `none` past 9999-12-31. -/
def nextDay (y m d : Nat) : Option (Nat × Nat × Nat) :=
  if d < daysInMonth y m then some (y, m, d + 1)
  else if m < 12 then some (y, m + 1, 1)
  else if y < 9999 then some (y + 1, 1, 1)
  else none

/-- The day before, `none` before 0001-01-01. -/
def prevDay (y m d : Nat) : Option (Nat × Nat × Nat) :=
  if 1 < d then some (y, m, d - 1)
  else if 1 < m then some (y, m - 1, daysInMonth y (m - 1))
  else if 1 < y then some (y - 1, 12, 31)
  else none

/-- Microseconds since midnight. -/
def timeOfDay (d : DateTime) : Int := ((d.hour * 60 + d.minute) * 60 + d.second) * 1000000 + d.micro

/-- The date `(y, m, day)` at `t` microseconds after midnight, `0 ≤ t < dayMicros`. -/
def ofDayTime (date : Nat × Nat × Nat) (t : Int) (tz : Option Int) : DateTime :=
  let t := t.toNat
  { year := date.1, month := date.2.1, day := date.2.2, hour := t / 3600000000, minute := t / 60000000 % 60,
    second := t / 1000000 % 60, micro := t % 1000000, tz := tz }

/-- `datetime + timedelta` for a `timedelta` shorter than a day (UTC offsets are): the calendar moves by at most one day;
leaving the years 1..9999 raises `OverflowError`. -/
def addMicros (d : DateTime) (delta : Int) : Except PyErr DateTime :=
  let t := d.timeOfDay + delta
  if t < 0 then
    match prevDay d.year d.month d.day with
    | none => .error .overflowError
    | some date => .ok (ofDayTime date (t + dayMicros) d.tz)
  else if t ≥ dayMicros then
    match nextDay d.year d.month d.day with
    | none => .error .overflowError
    | some date => .ok (ofDayTime date (t - dayMicros) d.tz)
  else .ok (ofDayTime (d.year, d.month, d.day) t d.tz)

/-- `datetime(...)`. -/
def new (d : DateTime) : Except PyErr DateTime := if d.Valid then .ok d else .error .valueError

end DateTime

/-- `core.py:323-326 OffsetTZInfo.__init__`: the offset must be strictly within a day. -/
def offsetTZInfo (delta : Int) : Except PyErr Int :=
  if delta ≤ -dayMicros ∨ delta ≥ dayMicros then .error .valueError else .ok delta

/-- `core.py:394-561 Timestamp`: a `datetime` with the three additional attributes. -/
structure Timestamp where
  dt : DateTime
  precision : Option Precision
  fracPrecision : Int
  frac : Dec
  deriving DecidableEq, Repr, Inhabited

/-- Arguments of the `Timestamp` constructor (`core.py:440-526`), positional or by keyword. -/
structure TimestampArgs where
  year : Nat
  month : Nat
  day : Nat
  hour : Nat := 0
  minute : Nat := 0
  second : Nat := 0
  micro : Option Int := none
  tz : Option Int := none
  precision : Option Precision := none
  fracPrecision : Option Int := none
  frac : Option Dec := none
  deriving DecidableEq, Repr

namespace Timestamp

/-- The normalisation of `core.py:450-519`: microsecond, `fractional_precision`, `fractional_seconds`. -/
def normalise (micro : Option Int) (fracPrecision : Option Int) (frac : Option Dec) : Except PyErr (Int × Int × Dec) := do
  -- 466-471
  if let some p := fracPrecision then
    if ¬ (0 ≤ p ∧ p ≤ 6) then throw .valueError
  -- 474-480
  if let some f := frac then
    if ¬ f.inUnit then throw .valueError
  -- 484-486
  if frac.isSome && (fracPrecision.isSome || micro.isSome) then throw .valueError
  -- 488-489
  if fracPrecision.isSome && micro.isNone then throw .valueError
  -- 491-492
  if fracPrecision = some 0 && micro ≠ some 0 then throw .valueError
  match frac with
  | some f =>
    -- 494-503
    let f := if f.coeff = 0 ∧ f.exp > 0 then Dec.zero else f
    let m ← f.mulMillion
    return (m.toInt, min (-f.exp) 6, f)
  | none =>
    match micro with
    | some m =>
      -- 504-513; `Decimal(m).scaleb(-6).quantize(10^-p)` is exact exactly if `10^(6-p)` divides `m`
      let p := fracPrecision.getD 6
      if p = 0 then return (m, 0, Dec.zero)
      else if 0 ≤ m ∧ m < 1000000 then
        let k := 10 ^ (6 - p).toNat
        if m.toNat % k = 0 then return (m, p, ⟨false, m.toNat / k, -p⟩) else throw .valueError
      else throw .valueError  -- in any case the `datetime` constructor refuses the microsecond
    | none => return (0, 0, Dec.zero)

/-- `core.py:440-526 Timestamp.__new__`. -/
def new (a : TimestampArgs) : Except PyErr Timestamp := do
  let (micro, p, f) ← normalise a.micro a.fracPrecision a.frac
  if micro < 0 then throw .valueError
  let dt ← DateTime.new ⟨a.year, a.month, a.day, a.hour, a.minute, a.second, micro.toNat, a.tz⟩
  return ⟨dt, a.precision, p, f⟩

/-- `core.py:536-561 adjust_from_utc_fields`; the branch for `precision is None` (which returns a plain `datetime`) is not
taken by the readers, which always give a precision, and is represented by the same fields. -/
def adjustFromUtcFields (a : TimestampArgs) : Except PyErr Timestamp := do
  let raw ← new a
  match raw.dt.tz with
  | none => return raw
  | some off =>
    if off = 0 then return raw
    else
      let adj ← raw.dt.addMicros off
      new { year := adj.year, month := adj.month, day := adj.day, hour := adj.hour, minute := adj.minute,
            second := adj.second, micro := none, tz := raw.dt.tz, precision := raw.precision, fracPrecision := none,
            frac := some raw.frac }

end Timestamp
end Ion
