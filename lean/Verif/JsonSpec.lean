import Verif.Json
import Verif.SimpleSpec
/-!
# Specification: JSON down-conversion of Ion values

The rules of the Ion cookbook ("Down-converting to JSON") for an Ion value.
-/
namespace Ion.Json.Spec
open Ion Ion.Spec Ion.Simple Ion.Simple.Spec

/-- The names of fields, once each, in order. -/
def names (ns : List Val) : List (Option Text) := firsts (ns.filterMap Node.field)

/-- The newest (last) field with a name. -/
def newest (name : Option Text) (ns : List Val) : Option Val := (ns.filter fun n => n.field = some name).getLast?

/-- The exponent of a finite float is not the largest one. -/
def finite (bits : UInt64) : Prop := bits.toNat / 2 ^ 52 % 2 ^ 11 ≠ 2 ^ 11 - 1

/-- A scalar as JSON. -/
inductive ScalarJson (P : Lib) : Scalar (Option Text) → Json → Prop
  | null (ty : IonType) : ScalarJson P (.null ty) .null
  | bool (b : Bool) : ScalarJson P (.bool b) (.bool b)
  | int (i : Int) : ScalarJson P (.int i) (.int i)
  | float (bits : UInt64) : finite bits → ScalarJson P (.float bits) (.float bits)
  | notFinite (bits : UInt64) : ¬ finite bits → ScalarJson P (.float bits) .null
  | decimal (d : Dec) : ScalarJson P (.decimal d) (.float (P.floatOf d))
  | timestamp (t : Scalars.TimeVal) : ScalarJson P (.timestamp (timeValue t)) (.str (P.timeStr t))
  | symbol (t : Text) : ScalarJson P (.symbol (some t)) (.str t)
  | unknownSymbol : ScalarJson P (.symbol none) .null
  | string (t : Text) : ScalarJson P (.string t) (.str t)
  | clob (b : Bytes) : ScalarJson P (.clob b) (.str (b.map UInt8.toNat))
  | blob (b : Bytes) : ScalarJson P (.blob b) (.str (Base64.encode (b.map UInt8.toNat)))

mutual
/-- A value as JSON: annotations are dropped, lists and s-expressions become arrays, and of several fields with the same name
the newest one is kept, at the place of the first. -/
inductive IsJson (P : Lib) : Val → Json → Prop
  | scalar (f : Option (Option Text)) (a : List (Option Text)) (x : Scalar (Option Text)) (j : Json) : ScalarJson P x j →
      IsJson P (.scalar f a x) j
  | seq (f : Option (Option Text)) (a : List (Option Text)) (ty : CType) (ns : List Val) (js : List Json) : ty ≠ .struct →
      AreJson P ns js → IsJson P (.cont f a ty ns) (.list js)
  | struct (f : Option (Option Text)) (a : List (Option Text)) (ns : List Val) (kept : List Val) (js : List Json) :
      kept.map some = (names ns).map (newest · ns) → AreJson P kept js →
      IsJson P (.cont f a .struct ns) (.dict ((names ns).zip js))
/-- One by one. -/
inductive AreJson (P : Lib) : List Val → List Json → Prop
  | nil : AreJson P [] []
  | cons (n : Val) (j : Json) (ns : List Val) (js : List Json) : IsJson P n j → AreJson P ns js → AreJson P (n :: ns) (j :: js)
end

end Ion.Json.Spec
