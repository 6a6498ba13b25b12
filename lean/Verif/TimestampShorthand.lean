import Verif.Timestamp
/-!
# The shorthand `timestamp`

Models `timestamp` of `amazon/ion/core.py:564-595`.  Simplification: as in `Timestamp.lean`; the `tz` in the arguments is not
looked at (the function has no such argument).
-/
namespace Ion.Timestamp
open Ion

/-- `core.py:573-577`: the hours of the offset. -/
def hoursDelta : Option Int → Except PyErr (Option Int)
  | none => .ok none
  | some h => if h < -23 ∨ h > 23 then .error .valueError else .ok (some (h * 60 * minuteMicros))

/-- `core.py:578-585`: the minutes of the offset. -/
def minutesDelta (delta : Option Int) : Option Int → Except PyErr (Option Int)
  | none => .ok delta
  | some m => if m < -59 ∨ m > 59 then .error .valueError else
    match delta with
    | none => .ok (some (m * minuteMicros))
    | some d => .ok (some (d + m * minuteMicros))

/-- `core.py:564-595 timestamp`. -/
def shorthand (a : TimestampArgs) (offHours offMinutes : Option Int) : Except PyErr Timestamp := do
  let delta ← minutesDelta (← hoursDelta offHours) offMinutes
  match delta with
  | none => Timestamp.new { a with tz := none }
  | some d => do
    let tz ← offsetTZInfo d
    Timestamp.new { a with tz := some tz }

end Ion.Timestamp
