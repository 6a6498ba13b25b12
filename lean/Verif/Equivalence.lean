import Mathlib.Algebra.Field.Rat
import Verif.Simple
import Verif.Props.Instant
/-!
# Ion equality

Models `amazon/ion/equivalence.py`.  Objects are those of `Simple.lean`; what `isinstance` says about an object follows from
its contents (an object that holds a float is a `float`), for sequences from its class.

Simplifications: objects are compared as if they were different objects with the given contents, so that an object of an
unknown class is never equal to another; the NaN and infinite decimals are left out; a token is never equal (`==`) to
a tuple; a token without text always has an ID (`symbols.py:88-91`), so that the `ValueError` in `_symbols_eq` cannot occur.
-/
namespace Ion.Equivalence
open Ion Ion.Simple

/-! ## Library behaviour: `==` -/

/-- The numerical value of a finite decimal. -/
def decVal (d : Dec) : ℚ := (if d.sign then -1 else 1) * (d.coeff : ℚ) * (10 : ℚ) ^ d.exp

/-- IEEE 754 binary64: the bits are a NaN. -/
def isNaN (x : UInt64) : Bool := x.toNat % 2 ^ 63 > 0x7FF0000000000000
/-- The bits are an infinity. -/
def isInf (x : UInt64) : Bool := x.toNat % 2 ^ 63 = 0x7FF0000000000000
/-- The bits are a zero. -/
def isZero (x : UInt64) : Bool := x.toNat % 2 ^ 63 = 0

/-- The numerical value of a finite binary64. -/
def floatVal (x : UInt64) : ℚ :=
  let e := x.toNat / 2 ^ 52 % 2 ^ 11
  let f := x.toNat % 2 ^ 52
  (if x.toNat / 2 ^ 63 = 1 then -1 else 1) * ((if e = 0 then f else 2 ^ 52 + f : Nat) : ℚ) * (2 : ℚ) ^ ((max e 1 : Nat) - 1075 : Int)

/-- `==` of floats. -/
def floatEq (x y : UInt64) : Bool := !isNaN x && !isNaN y && (decide (x = y) || (isZero x && isZero y))

/-- The numerical value of an object, if it is a finite number. -/
def numVal : PyVal → Option ℚ
  | .bool b => some (if b then 1 else 0)
  | .int i => some i
  | .float x => if isNaN x || isInf x then none else some (floatVal x)
  | .decimal d => some (decVal d)
  | _ => none

/-- `==` of `datetime`s: with different offsets, the instants count; with and without an offset, never equal. -/
def dateTimeEq (a b : DateTime) : Bool :=
  match a.tz, b.tz with
  | none, none => a = b
  | some o, some p => DateTime.Spec.instant a - o = DateTime.Spec.instant b - p
  | _, _ => false

/-- `==` of numbers; never equal to anything else. -/
def numEq : Option ℚ → Option ℚ → Bool
  | some x, some y => x = y
  | _, _ => false

/-- `==` of scalars. -/
def valEq : PyVal → PyVal → Bool
  | .float x, .float y => floatEq x y
  | .timestamp a, .timestamp b => dateTimeEq a.dateTime b.dateTime
  | .sym a, .sym b => a = b
  | .str a, .str b => a = b
  | .bytes a, .bytes b => a = b
  | a, b => numEq (numVal a) (numVal b)

/-! ## Classes and contents of objects -/

mutual
/-- `isinstance(_, list)` for the class. -/
def _root_.Ion.Simple.Cls.isList : Cls → Bool
  | .list => true
  | .other bases => anyList bases
  | _ => false
/-- One of the classes. -/
def anyList : List Cls → Bool
  | [] => false
  | c :: cs => c.isList || anyList cs
end

/-- `isinstance(_, list)` for a sequence: `IonPyList` is a `list`; otherwise a list or a tuple. -/
def isListKind : Kind → Bool
  | .plain c => c.isList
  | .ion _ _ => true

/-- `isinstance(_, _IonNature)`. -/
def isIon : PyObj → Bool
  | .null _ _ => true
  | .scalar (.ion _ _) _ => true
  | .seq (.ion _ _) _ => true
  | .dict (.ion _ _) _ => true
  | _ => false

/-- `isinstance(_, Multimap)` for a dictionary. -/
def isMultimap : Kind → Bool
  | .plain _ => false
  | .ion _ _ => true

/-- `ion_type`. -/
def ionTypeOf : PyObj → Option IonType
  | .null ty _ => ty
  | .scalar (.ion ty _) _ => ty
  | .seq (.ion ty _) _ => ty
  | .dict (.ion ty _) _ => ty
  | _ => none

/-- `ion_annotations`. -/
def annotationsOf : PyObj → List SymArg
  | .null _ ann => ann
  | .scalar (.ion _ ann) _ => ann
  | .seq (.ion _ ann) _ => ann
  | .dict (.ion _ ann) _ => ann
  | _ => []

/-- Items of a dictionary or `Multimap`. -/
abbrev Items := List (Option SymArg × PyObj)

/-- `key in d`. -/
def hasKey (items : Items) (k : Option SymArg) : Bool := items.any fun p => p.1 = k

/-- `get_all_values(key)` (`core.py:639-640`). -/
def valuesFor (items : Items) (k : Option SymArg) : List PyObj := (items.filter fun p => p.1 = k).map (·.2)

/-- `d[key]`: the newest value (`core.py:617-618`). -/
def newest (items : Items) (k : Option SymArg) : PyObj := (valuesFor items k).getLastD .none

/-! ## `==` of objects -/

/-- All pairs, of lists of the same length. -/
def allEq (eq : PyObj → PyObj → Bool) : List PyObj → List PyObj → Bool
  | [], [] => true
  | x :: xs, y :: ys => eq x y && allEq eq xs ys
  | _, _ => false

/-- The keys of `xs` are keys of `ys`, with equal (newest) values. -/
def itemsIn (eq : PyObj → PyObj → Bool) (xs ys : Items) : Bool :=
  xs.all fun p => hasKey ys p.1 && eq (newest xs p.1) (newest ys p.1)

/-- One level of `==`; `eq` is `==` of the parts.  For mappings, the number of keys and the values of the keys of the first;
since the number is the same, this is the same as in both directions. -/
def pyEqStep (eq : PyObj → PyObj → Bool) : PyObj → PyObj → Bool
  | .none, .none => true
  | .scalar _ v, .scalar _ w => valEq v w
  | .seq k xs, .seq l ys => isListKind k = isListKind l && allEq eq xs ys
  | .dict _ xs, .dict _ ys => itemsIn eq xs ys && itemsIn eq ys xs
  | _, _ => false

/-- `==`, to the given depth. -/
def pyEq : Nat → PyObj → PyObj → Bool
  | 0 => fun _ _ => false
  | n + 1 => pyEqStep (pyEq n)

/-! ## The comparisons of `equivalence.py` -/

/-- The text of a symbol: `getattr(a, 'text', a)`. -/
def symText : SymArg → Option Text
  | .text t => some t
  | .tok k => k.text

/-- `getattr(a, 'location', None)`. -/
def symLocation : SymArg → Option ImportLocation
  | .text _ => none
  | .tok k => k.location

/-- `getattr(a, 'sid', None)`. -/
def symSid : SymArg → Option Nat
  | .text _ => none
  | .tok k => k.sid

/-- `equivalence.py:201-227 _symbols_eq` of symbols. -/
def symbolsEq (a b : SymArg) : Bool :=
  if symText a = symText b then
    if symText a = none then
      if symLocation a ≠ symLocation b then false
      else if (symSid a = some 0) ≠ (symSid b = some 0) then false
      else true
    else true
  else false

/-- A value that is text or a token. -/
def symOf : PyObj → Option SymArg
  | .scalar _ (.str t) => some (.text t)
  | .scalar _ (.sym k) => some (.tok k)
  | _ => none

/-- `equivalence.py:201-204 _symbols_eq` with any second operand. -/
def symbolsEqObj (a : SymArg) (b : PyObj) : Bool :=
  match symOf b with
  | some b => symbolsEq a b
  | none => false

/-- `_sequences_eq` with `_symbols_eq` (`equivalence.py:113-114, 117-127`). -/
def annotationsEq : List SymArg → List SymArg → Bool
  | [], [] => true
  | x :: xs, y :: ys => symbolsEq x y && annotationsEq xs ys
  | _, _ => false

/-- `equivalence.py:117-127 _sequences_eq` of a sequence with any object. -/
def sequencesEq (eq : PyObj → PyObj → Bool) (xs : List PyObj) (b : PyObj) : Bool :=
  match b with
  | .seq _ ys => allEq eq xs ys
  | _ => false

/-- `equivalence.py:138-156`: one direction. -/
def structIn (eq : PyObj → PyObj → Bool) (multi : Bool) (xs ys : Items) : Bool :=
  xs.all fun p =>
    hasKey ys p.1 &&
      (if multi then
        decide ((valuesFor xs p.1).length = (valuesFor ys p.1).length) &&
          (valuesFor xs p.1).all fun x => (valuesFor ys p.1).any fun y => eq x y
      else eq (newest xs p.1) (newest ys p.1))

/-- `equivalence.py:130-158 _structs_eq` of a dictionary with any object. -/
def structsEq (eq : PyObj → PyObj → Bool) (k : Kind) (xs : Items) (b : PyObj) : Bool :=
  match b with
  | .dict l ys =>
    decide (xs.length = ys.length) && structIn eq (isMultimap k && isMultimap l) xs ys &&
      structIn eq (isMultimap k && isMultimap l) ys xs
  | _ => false

/-- `equivalence.py:172-183 _timestamps_eq`, the part that depends on precisions.  The `is` between fractional precisions,
which are at most 6, is equality. -/
def precisionEq : Scalars.TimeVal → Scalars.TimeVal → Bool
  | .ts a, .ts b => a.precision = b.precision && a.fracPrecision = b.fracPrecision && decVal a.frac = decVal b.frac
  | .ts a, .dt _ => a.precision = some .second && a.fracPrecision = 6
  | .dt _, .ts b => b.precision = some .second && b.fracPrecision = 6
  | .dt _, .dt _ => true

/-- `equivalence.py:161-183 _timestamps_eq`. -/
def timestampsEq (a b : Scalars.TimeVal) : Bool :=
  a.dateTime.tz = b.dateTime.tz && precisionEq a b && dateTimeEq a.dateTime b.dateTime

/-- `a.replace(tzinfo=OffsetTZInfo())` if there is no `tzinfo` (`equivalence.py:193-196`). -/
def withOffset (d : DateTime) : DateTime := if d.tz = none then { d with tz := some 0 } else d

/-- `equivalence.py:186-198 _timestamp_instants_eq`. -/
def instantsEq (a b : Scalars.TimeVal) : Bool := dateTimeEq (withOffset a.dateTime) (withOffset b.dateTime)

/-- The comparison of a timestamp with any object. -/
def timesEqObj (instantsOnly : Bool) (a : Scalars.TimeVal) (b : PyObj) : Bool :=
  match b with
  | .scalar _ (.timestamp t) => if instantsOnly then instantsEq a t else timestampsEq a t
  | _ => false

/-- `Decimal.compare_total` of finite decimals (they are always canonical). -/
def compareTotal (a b : Dec) : Int :=
  if a.sign && !b.sign then -1
  else if !a.sign && b.sign then 1
  else if decVal a < decVal b then -1
  else if decVal b < decVal a then 1
  else if a.exp < b.exp then (if a.sign then 1 else -1)
  else if b.exp < a.exp then (if a.sign then -1 else 1)
  else 0

/-- `equivalence.py:230-239 _decimals_eq`. -/
def decimalsEq (a : Dec) (b : PyObj) : Bool :=
  match b with
  | .scalar _ (.decimal d) =>
    if a.coeff = 0 ∧ d.coeff = 0 ∧ a.sign ≠ d.sign then false else compareTotal a d = 0
  | _ => false

/-- `equivalence.py:242-243 _is_float_negative_zero`. -/
def isNegativeZero (x : UInt64) : Bool := x = 0x8000000000000000

/-- `equivalence.py:246-254 _floats_eq`. -/
def floatsEq (a : UInt64) (b : PyObj) : Bool :=
  match b with
  | .scalar _ (.float y) =>
    if isZero a && isZero y then isNegativeZero a == isNegativeZero y
    else floatEq a y || (isNaN a && isNaN y)
  | _ => false

/-! ## `ion_equals` -/

/-- `equivalence.py:78-94`: the comparison of an object with Ion nature, if the types and annotations allow it.  `eq` is
`ion_equals` of the parts, `py` is `==`. -/
def natureEq (instantsOnly : Bool) (eq py : PyObj → PyObj → Bool) (a b : PyObj) : Bool :=
  match a with
  | .seq _ xs => sequencesEq eq xs b
  | .dict k xs => structsEq eq k xs b
  | .scalar _ (.timestamp t) => timesEqObj instantsOnly t b
  | .null ty _ => match b with
    | .null _ _ => true
    | .none => ty = some .null
    | _ => false
  | .scalar _ (.sym s) => symbolsEqObj (.tok s) b
  | .scalar k (.str s) => if ionTypeOf (.scalar k (.str s)) = some .symbol then symbolsEqObj (.text s) b else py a b
  | .scalar _ (.decimal d) => decimalsEq d b
  | .scalar _ (.float x) => floatsEq x b
  | _ => py a b

/-- `equivalence.py:71-95`: the body of the first loop for an object `a` with Ion nature. -/
def firstLoop (instantsOnly : Bool) (eq py : PyObj → PyObj → Bool) (a b : PyObj) : Bool :=
  if (if isIon b then decide (ionTypeOf a = ionTypeOf b) && annotationsEq (annotationsOf a) (annotationsOf b)
      else (annotationsOf a).isEmpty) then
    natureEq instantsOnly eq py a b
  else false

/-- `equivalence.py:97-109`: the body of the second loop; `none` if it falls through. -/
def secondLoop (instantsOnly : Bool) (eq : PyObj → PyObj → Bool) (a b : PyObj) : Option Bool :=
  match a with
  | .seq k xs => if isListKind k then some (sequencesEq eq xs b) else none
  | .dict k xs => some (structsEq eq k xs b)
  | .scalar _ (.timestamp t) => some (timesEqObj instantsOnly t b)
  | .scalar _ (.sym s) => some (symbolsEqObj (.tok s) b)
  | .scalar _ (.decimal d) => some (decimalsEq d b)
  | .scalar _ (.float x) => some (floatsEq x b)
  | _ => none

/-- `equivalence.py:68-110 _ion_equals`.  The first loop leaves its variables exchanged, so that the second loop begins with
`b`. -/
def equalsStep (instantsOnly : Bool) (eq py : PyObj → PyObj → Bool) (a b : PyObj) : Bool :=
  if isIon a then firstLoop instantsOnly eq py a b
  else if isIon b then firstLoop instantsOnly eq py b a
  else match secondLoop instantsOnly eq b a with
    | some r => r
    | none => match secondLoop instantsOnly eq a b with
      | some r => r
      | none => py a b

/-- `ion_equals` to the given depth of nesting. -/
def equalsTo (instantsOnly : Bool) : Nat → PyObj → PyObj → Bool
  | 0 => fun _ _ => false
  | n + 1 => equalsStep instantsOnly (equalsTo instantsOnly n) (pyEq (n + 1))

mutual
/-- Depth of nesting. -/
def depth : PyObj → Nat
  | .seq _ elems => 1 + depthAll elems
  | .dict _ items => 1 + depthItems items
  | _ => 0
/-- Greatest depth. -/
def depthAll : List PyObj → Nat
  | [] => 0
  | o :: os => max (depth o) (depthAll os)
/-- Greatest depth. -/
def depthItems : List (Option SymArg × PyObj) → Nat
  | [] => 0
  | (_, o) :: items => max (depth o) (depthItems items)
end

/-- `equivalence.py:35-57 ion_equals`. -/
def ionEquals (instantsOnly : Bool) (a b : PyObj) : Bool := equalsTo instantsOnly (depth a + depth b + 1) a b

end Ion.Equivalence
