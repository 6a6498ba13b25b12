import Verif.SimpleSpec
import Verif.Props.Instant
import Mathlib.Algebra.Field.Rat
/-!
# Specification: which Ion values `ion_equals` identifies

Equality of Ion values with symbols by text.  It differs from equality in the Ion data model (`Simple.Spec.Same`) in two points,
which are spelled out here: timestamps are compared to the microsecond, and repeated fields of a struct are compared as sets of
values together with the number of values of each field.
-/
namespace Ion.Equivalence.Spec
open Ion Ion.Spec Ion.Simple Ion.Simple.Spec

/-- The value of a decimal fraction. -/
def fraction (d : Dec) : ℚ := (if d.sign then -1 else 1) * (d.coeff : ℚ) * (10 : ℚ) ^ d.exp

/-- Two timestamps are the same: instant, offset, precision, number of digits of the seconds (at most six count), fraction. -/
structure SameTime (a b : Timestamp) : Prop where
  instant : DateTime.Spec.instant a.dt = DateTime.Spec.instant b.dt
  offset : a.dt.tz = b.dt.tz
  precision : a.precision = b.precision
  digits : min (-a.frac.exp) 6 = min (-b.frac.exp) 6
  fraction : fraction a.frac = fraction b.frac

/-- Two timestamps are the same point in time, to the microsecond; an unknown offset is taken for UTC. -/
def SamePoint (a b : Timestamp) : Prop :=
  DateTime.Spec.instant a.dt - a.dt.tz.getD 0 = DateTime.Spec.instant b.dt - b.dt.tz.getD 0

/-- IEEE 754 binary64: the bits are a NaN (exponent all ones, fraction not zero). -/
def IsNaN (x : UInt64) : Prop := x.toNat / 2 ^ 52 % 2 ^ 11 = 2 ^ 11 - 1 ∧ x.toNat % 2 ^ 52 ≠ 0

/-- Equal scalars: NaNs are all equal; `instantsOnly` compares timestamps as points in time. -/
def SameScalar (instantsOnly : Bool) : Scalar (Option Text) → Scalar (Option Text) → Prop
  | .float x, .float y => x = y ∨ (IsNaN x ∧ IsNaN y)
  | .timestamp s, .timestamp t => if instantsOnly then SamePoint s t else SameTime s t
  | x, y => x = y

mutual
/-- Equal values, apart from the field names in front of them. -/
def Alike (instantsOnly : Bool) : Val → Val → Prop
  | .scalar _ a x, .scalar _ b y => a = b ∧ SameScalar instantsOnly x y
  | .cont _ a ty xs, .cont _ b tz ys => a = b ∧ ty = tz ∧
      if ty = .struct then
        (xs.map Node.field).Perm (ys.map Node.field) ∧ EachIn instantsOnly xs ys ∧ ∀ y ∈ ys, SomeIs instantsOnly xs y
      else AllAlike instantsOnly xs ys
  | _, _ => False
/-- One by one. -/
def AllAlike (instantsOnly : Bool) : List Val → List Val → Prop
  | [], [] => True
  | x :: xs, y :: ys => Alike instantsOnly x y ∧ AllAlike instantsOnly xs ys
  | _, _ => False
/-- Each field in the first list is a field in the second. -/
def EachIn (instantsOnly : Bool) : List Val → List Val → Prop
  | [], _ => True
  | x :: xs, ys => (∃ y ∈ ys, x.field = y.field ∧ Alike instantsOnly x y) ∧ EachIn instantsOnly xs ys
/-- One of the fields is the given one. -/
def SomeIs (instantsOnly : Bool) : List Val → Val → Prop
  | [], _ => False
  | x :: xs, y => (x.field = y.field ∧ Alike instantsOnly x y) ∨ SomeIs instantsOnly xs y
end

mutual
/-- No struct in the value has two fields with the same name. -/
def UniqueFields : Val → Prop
  | .scalar _ _ _ => True
  | .cont _ _ ty xs => (ty = .struct → (xs.map Node.field).Nodup) ∧ AllUnique xs
/-- All of them. -/
def AllUnique : List Val → Prop
  | [] => True
  | x :: xs => UniqueFields x ∧ AllUnique xs
end

/-- A scalar that `ion_equals` compares exactly: not a NaN, and not a timestamp with more than six digits of the seconds (or with
a negative zero as fraction). -/
def Exact : Scalar (Option Text) → Prop
  | .float x => ¬ IsNaN x
  | .timestamp t => (∃ p, IsTimeValue t p) ∧ -6 ≤ t.frac.exp ∧ t.frac.sign = false
  | _ => True

mutual
/-- All scalars in the value satisfy a condition. -/
def EveryScalar (P : Scalar (Option Text) → Prop) : Val → Prop
  | .scalar _ _ x => P x
  | .cont _ _ _ xs => EveryScalars P xs
/-- All of them. -/
def EveryScalars (P : Scalar (Option Text) → Prop) : List Val → Prop
  | [] => True
  | x :: xs => EveryScalar P x ∧ EveryScalars P xs
end

/-! ## Objects as `load` makes them -/

/-- A field name of a loaded struct: text, or `None`. -/
def PlainKey : Option SymArg → Prop
  | some (.tok _) => False
  | _ => True

/-- A symbol with text, or the symbol zero. -/
def Known : SymArg → Prop
  | .text _ => True
  | .tok k => k.text ≠ none ∨ (k.sid = some 0 ∧ k.location = none)

/-- The contents of a scalar: truth values are 0 and 1, timestamps are in normal form, symbols are known. -/
def ProperValue (ty : Option IonType) : PyVal → Prop
  | .int i => ty = some .bool → i = 0 ∨ i = 1
  | .timestamp (.ts t) => ∃ p, IsTimeValue t p
  | .timestamp (.dt _) => False
  | .sym k => Known (.tok k)
  | _ => True

mutual
/-- An object with Ion nature, and so are its parts. -/
def Proper : PyObj → Prop
  | .null _ ann => ∀ a ∈ ann, Known a
  | .scalar (.ion ty ann) v => (∀ a ∈ ann, Known a) ∧ ProperValue ty v
  | .seq (.ion _ ann) xs => (∀ a ∈ ann, Known a) ∧ AllProper xs
  | .dict (.ion _ ann) xs => (∀ a ∈ ann, Known a) ∧ AllProperItems xs
  | _ => False
/-- All of them. -/
def AllProper : List PyObj → Prop
  | [] => True
  | x :: xs => Proper x ∧ AllProper xs
/-- All of them, with plain keys. -/
def AllProperItems : List (Option SymArg × PyObj) → Prop
  | [] => True
  | (k, x) :: xs => PlainKey k ∧ Proper x ∧ AllProperItems xs
end

/-! ## Objects on which equality is symmetric and reflexive -/

/-- The contents of a scalar are of a class that belongs to its Ion type (`simple_types.py:136-254`). -/
def Fits : Option IonType → PyVal → Prop
  | some .bool, .bool _ => True
  | some .bool, .int _ => True
  | some .int, .int _ => True
  | some .float, .float _ => True
  | some .decimal, .decimal _ => True
  | some .timestamp, .timestamp _ => True
  | some .symbol, .sym _ => True
  | some .symbol, .str _ => True
  | some .string, .str _ => True
  | some .clob, .bytes _ => True
  | some .blob, .bytes _ => True
  | _, _ => False

mutual
/-- Every part of the object with Ion nature has an Ion type that fits its class.  Objects without Ion nature are free. -/
def WellTyped : PyObj → Prop
  | .scalar (.ion ty _) v => Fits ty v
  | .seq (.ion ty _) xs => (ty = some .list ∨ ty = some .sexp) ∧ AllTyped xs
  | .seq (.plain _) xs => AllTyped xs
  | .dict (.ion ty _) xs => ty = some .struct ∧ AllTypedItems xs
  | .dict (.plain _) xs => AllTypedItems xs
  | _ => True
/-- All of them. -/
def AllTyped : List PyObj → Prop
  | [] => True
  | x :: xs => WellTyped x ∧ AllTyped xs
/-- All of them. -/
def AllTypedItems : List (Option SymArg × PyObj) → Prop
  | [] => True
  | (_, x) :: xs => WellTyped x ∧ AllTypedItems xs
end

mutual
/-- Equal to itself under `==`, as the parts of a plain tuple have to be: no NaN, no null with Ion nature, no objects of unknown
classes. -/
def SelfEqual : PyObj → Prop
  | .none => True
  | .null _ _ => False
  | .scalar _ v => (∀ b, v ≠ .decimalSpecial b) ∧ ∀ x, v = .float x → ¬ IsNaN x
  | .seq _ xs => AllSelfEqual xs
  | .dict _ xs => AllSelfEqualItems xs
  | .other _ => False
/-- All of them. -/
def AllSelfEqual : List PyObj → Prop
  | [] => True
  | x :: xs => SelfEqual x ∧ AllSelfEqual xs
/-- All of them. -/
def AllSelfEqualItems : List (Option SymArg × PyObj) → Prop
  | [] => True
  | (_, x) :: xs => SelfEqual x ∧ AllSelfEqualItems xs
end

mutual
/-- Comparable by contents: no objects of unknown classes, no NaN or infinite decimals (which this model leaves out).  A plain
tuple is compared with `==`, which is not reflexive for NaN and for nulls with Ion nature. -/
def Comparable : PyObj → Prop
  | .none => True
  | .null _ _ => True
  | .scalar _ v => ∀ b, v ≠ .decimalSpecial b
  | .seq (.ion _ _) xs => AllComparable xs
  | .seq (.plain c) xs => (c = .list ∧ AllComparable xs) ∨ (c = .tuple ∧ AllSelfEqual xs)
  | .dict _ xs => AllComparableItems xs
  | .other _ => False
/-- All of them. -/
def AllComparable : List PyObj → Prop
  | [] => True
  | x :: xs => Comparable x ∧ AllComparable xs
/-- All of them. -/
def AllComparableItems : List (Option SymArg × PyObj) → Prop
  | [] => True
  | (_, x) :: xs => Comparable x ∧ AllComparableItems xs
end

/-! ## Objects without their Ion nature -/

/-- The class of a plain value. -/
def plainClass : PyVal → Cls
  | .bool _ => .bool
  | .int _ => .int
  | .float _ => .float
  | .decimal _ => .decimal
  | .decimalSpecial _ => .decimal
  | .timestamp (.ts _) => .timestamp
  | .timestamp (.dt _) => .datetime
  | .sym _ => .symbolToken
  | .str _ => .text
  | .bytes _ => .bytes

mutual
/-- The object without Ion types and annotations, at any depth: lists are plain lists, structs without repeated fields are plain
dictionaries.  A null with Ion nature stays. -/
def bare : PyObj → PyObj
  | .scalar (.ion _ _) v => .scalar (.plain (plainClass v)) v
  | .seq (.ion _ _) xs => .seq (.plain .list) (bareAll xs)
  | .seq (.plain c) xs => .seq (.plain c) (bareAll xs)
  | .dict (.ion _ _) xs => .dict (if (xs.map (·.1)).Nodup then .plain .dict else .ion none []) (bareItems xs)
  | .dict (.plain c) xs => .dict (.plain c) (bareItems xs)
  | o => o
/-- All of them. -/
def bareAll : List PyObj → List PyObj
  | [] => []
  | x :: xs => bare x :: bareAll xs
/-- All of them. -/
def bareItems : List (Option SymArg × PyObj) → List (Option SymArg × PyObj)
  | [] => []
  | (k, x) :: xs => (k, bare x) :: bareItems xs
end

end Ion.Equivalence.Spec
