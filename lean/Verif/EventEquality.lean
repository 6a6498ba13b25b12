import Verif.Equivalence
/-!
# Comparison of events

Models `==` and `!=` of `IonEvent` (`amazon/ion/core.py:126-163`).  `!=` is that of `tuple`, which `IonEvent` inherits: the class
defines `__eq__` only.

Simplifications: `a == b` is `a.__eq__(b)` (for an `IonEvent` and an `IonThunkEvent`, Python asks the latter); non-finite
decimals are left out (`==` of them is false here); the items of two events are different objects.
-/
namespace Ion.EventEquality
open Ion Ion.Equivalence

/-- `==` of values, which may be `None`. -/
def optEq : Option PyVal → Option PyVal → Bool
  | none, none => true
  | some a, some b => valEq a b
  | _, _ => false

/-- `isinstance(_, Timestamp)`. -/
def isTs : Option PyVal → Bool
  | some (.timestamp (.ts _)) => true
  | _ => false

/-- `getattr(_, 'precision', None)`. -/
def precisionOf : Option PyVal → Option Precision
  | some (.timestamp (.ts t)) => t.precision
  | _ => none

/-- `core.py:141-149`: the precisions of timestamps; the absence of one is that of a naive `datetime`. -/
def precisionsEq (a b : Option PyVal) : Bool :=
  if isTs a || isTs b then
    !(precisionOf a ≠ precisionOf b &&
      !((precisionOf a = none && precisionOf b = some .second) || (precisionOf a = some .second && precisionOf b = none)))
  else true

/-- `core.py:151-155`: the fractions of timestamps (`==` of decimals is by value). -/
def fractionsEq : Option PyVal → Option PyVal → Bool
  | some (.timestamp (.ts s)), some (.timestamp (.ts t)) => decVal s.frac = decVal t.frac
  | _, _ => true

/-- `core.py:157-159`: the offsets, if the first value is a `datetime` (the second is one too, as they are equal). -/
def offsetsEq : Option PyVal → Option PyVal → Bool
  | some (.timestamp s), some (.timestamp t) => s.dateTime.tz = t.dateTime.tz
  | _, _ => true

/-- `core.py:130-159`: the values. -/
def valuesEq (a b : Option PyVal) : Bool :=
  match a with
  | some (.float x) => match b with
    | some (.float y) => floatEq x y || (isNaN x && isNaN y)
    | _ => false
  | _ => optEq a b && precisionsEq a b && fractionsEq a b && offsetsEq a b

/-- `core.py:126-166 IonEvent.__eq__` of two events; reading the value of a thunk may raise. -/
def eventEq (a b : IonEvent) : Except PyErr Bool := do
  let v ← a.value
  let w ← b.value
  return valuesEq v w && decide (a.eventType = b.eventType) && decide (a.ionType = b.ionType) && decide (a.fieldName = b.fieldName) &&
    decide (a.annotations = b.annotations) && decide (a.depth = b.depth)

/-- `!=` of two events that are not thunks: `tuple.__ne__`, some item differs. -/
def eventNe (a b : IonEvent) : Except PyErr Bool := do
  let v ← a.value
  let w ← b.value
  return !(decide (a.eventType = b.eventType) && decide (a.ionType = b.ionType) && optEq v w && decide (a.fieldName = b.fieldName) &&
    decide (a.annotations = b.annotations) && decide (a.depth = b.depth))

end Ion.EventEquality
