import Verif.Simple
import Verif.IonSpec
/-!
# Specification: the Ion value of a Python object

The conversion table in the documentation of `dump` and `load`, as a relation between Python objects and Ion values, and
equality in the Ion data model.
-/
namespace Ion.Simple.Spec
open Ion Ion.Spec Ion.Simple

/-- An Ion value, with symbols by their text (`none` for an unknown text). -/
abbrev Val := Ion.Spec.Node (Option Text)

/-! ## Types -/

mutual
/-- The documented types of the closest supported classes that a class is or inherits from. -/
def nearest (tupleAsSexp : Bool) : Cls → List IonType
  | .noneType => [.null]
  | .bool => [.bool]
  | .int => [.int]
  | .float => [.float]
  | .decimal => [.decimal]
  | .datetime => [.timestamp]
  | .timestamp => [.timestamp]
  | .symbolToken => [.symbol]
  | .text => [.string]
  | .bytes => [.blob]
  | .list => [.list]
  | .tuple => [if tupleAsSexp then .sexp else .list]
  | .dict => [.struct]
  | .object => []
  | .other bases => nearestAll tupleAsSexp bases

/-- `nearest` of several classes. -/
def nearestAll (tupleAsSexp : Bool) : List Cls → List IonType
  | [] => []
  | c :: cs => nearest tupleAsSexp c ++ nearestAll tupleAsSexp cs
end

/-- The documented Ion type of an instance of a class that inherits from supported classes of one type. -/
def Documented (tupleAsSexp : Bool) (c : Cls) (ty : IonType) : Prop :=
  nearest tupleAsSexp c ≠ [] ∧ ∀ t ∈ nearest tupleAsSexp c, t = ty

/-- Type and annotations of an object. -/
inductive Typed (tupleAsSexp : Bool) : Kind → IonType → List SymArg → Prop
  | plain (c : Cls) (ty : IonType) : Documented tupleAsSexp c ty → Typed tupleAsSexp (.plain c) ty []
  | ion (ty : IonType) (ann : List SymArg) : Typed tupleAsSexp (.ion (some ty) ann) ty ann

/-! ## Values -/

/-- Whether an object has Ion nature. -/
def IsIon : PyObj → Prop
  | .null _ _ => True
  | .scalar (.ion _ _) _ => True
  | .seq (.ion _ _) _ => True
  | .dict (.ion _ _) _ => True
  | _ => False

/-- The symbol that a Python value stands for: a token, or text. -/
def asSymbol : PyVal → Option SymArg
  | .sym k => some (.tok k)
  | .str t => some (.text t)
  | _ => none

/-- The scalar that a Python value stands for, as a value of an Ion type; `sym` gives the text of a symbol (`none` inside
for an unknown text). -/
def scalarOf (sym : SymArg → Option (Option Text)) (ty : IonType) (v : PyVal) : Option (Scalar (Option Text)) :=
  if ty = .symbol then ((asSymbol v).bind sym).map .symbol else denote (fun k => sym (.tok k)) ty (some v)

/-- The field name that a key stands for.  `None` and the empty text are only possible for values with Ion nature. -/
inductive IsFieldName (sym : SymArg → Option (Option Text)) (o : PyObj) : Option SymArg → Option Text → Prop
  | text (t : Text) : t ≠ [] ∨ IsIon o → IsFieldName sym o (some (.text t)) (some t)
  | token (k : SymbolToken) (name : Option Text) : sym (.tok k) = some name → IsFieldName sym o (some (.tok k)) name
  | unknown : IsIon o → IsFieldName sym o none none

mutual
/-- The object `o`, as a value with the given field name (if any), stands for an Ion value. -/
inductive IsValue (tupleAsSexp : Bool) (sym : SymArg → Option (Option Text)) : Option (Option Text) → PyObj → Val → Prop
  | none (f : Option (Option Text)) : IsValue tupleAsSexp sym f .none (.scalar f [] (.null .null))
  | null (f : Option (Option Text)) (ty : IonType) (ann : List SymArg) (a : List (Option Text)) : allSome sym ann = some a →
      IsValue tupleAsSexp sym f (.null (some ty) ann) (.scalar f a (.null ty))
  | scalar (f : Option (Option Text)) (k : Kind) (v : PyVal) (ty : IonType) (ann : List SymArg) (a : List (Option Text)) (x : Scalar (Option Text)) :
      Typed tupleAsSexp k ty ann → allSome sym ann = some a → scalarOf sym ty v = some x →
      IsValue tupleAsSexp sym f (.scalar k v) (.scalar f a x)
  | seq (f : Option (Option Text)) (k : Kind) (elems : List PyObj) (ty : CType) (ann : List SymArg) (a : List (Option Text)) (ns : List Val) :
      Typed tupleAsSexp k ty.ty ann → ty ≠ .struct → allSome sym ann = some a → AreValues tupleAsSexp sym elems ns →
      IsValue tupleAsSexp sym f (.seq k elems) (.cont f a ty ns)
  | dict (f : Option (Option Text)) (k : Kind) (items : List (Option SymArg × PyObj)) (ann : List SymArg) (a : List (Option Text)) (ns : List Val) :
      Typed tupleAsSexp k .struct ann → allSome sym ann = some a → AreFields tupleAsSexp sym items ns →
      IsValue tupleAsSexp sym f (.dict k items) (.cont f a .struct ns)

/-- The same for the elements of a sequence. -/
inductive AreValues (tupleAsSexp : Bool) (sym : SymArg → Option (Option Text)) : List PyObj → List Val → Prop
  | nil : AreValues tupleAsSexp sym [] []
  | cons (o : PyObj) (n : Val) (os : List PyObj) (ns : List Val) : IsValue tupleAsSexp sym none o n →
      AreValues tupleAsSexp sym os ns → AreValues tupleAsSexp sym (o :: os) (n :: ns)

/-- The same for the items of a dictionary. -/
inductive AreFields (tupleAsSexp : Bool) (sym : SymArg → Option (Option Text)) : List (Option SymArg × PyObj) → List Val → Prop
  | nil : AreFields tupleAsSexp sym [] []
  | cons (key : Option SymArg) (name : Option Text) (o : PyObj) (n : Val) (items : List (Option SymArg × PyObj)) (ns : List Val) :
      IsFieldName sym o key name → IsValue tupleAsSexp sym (some name) o n →
      AreFields tupleAsSexp sym items ns → AreFields tupleAsSexp sym ((key, o) :: items) (n :: ns)
end

/-- A value held by the class that `load` uses for the type: truth values are 0 and 1, symbols are tokens, timestamps are
`Timestamp`s in their normal form. -/
def nativeScalar : IonType → PyVal → Prop
  | .bool, .int i => i = 0 ∨ i = 1
  | .symbol, .sym _ => True
  | .symbol, _ => False
  | .timestamp, .timestamp tv => tv = .ts (timeValue tv)
  | _, _ => True

mutual
/-- Objects like those that `load` returns: all have Ion nature, keys are texts or `None`. -/
def Native : PyObj → Prop
  | .null _ _ => True
  | .scalar (.ion (some ty) _) v => nativeScalar ty v
  | .seq (.ion _ _) elems => NativeAll elems
  | .dict (.ion _ _) items => NativeItems items
  | _ => False
/-- All of them. -/
def NativeAll : List PyObj → Prop
  | [] => True
  | o :: os => Native o ∧ NativeAll os
/-- All of them, and the keys. -/
def NativeItems : List (Option SymArg × PyObj) → Prop
  | [] => True
  | (key, o) :: items => (∀ k, key ≠ some (.tok k)) ∧ Native o ∧ NativeItems items
end

theorem native_ion {o : PyObj} (h : Native o) : IsIon o := by
  cases o with
  | none => exact absurd h id
  | null => trivial
  | scalar k v => cases k with | plain => exact absurd h id | ion => trivial
  | seq k v => cases k with | plain => exact absurd h id | ion => trivial
  | dict k v => cases k with | plain => exact absurd h id | ion => trivial
  | other => exact absurd h id

theorem nativeAll_iff (l : List PyObj) : NativeAll l ↔ ∀ o ∈ l, Native o := by
  induction l with
  | nil => simp [NativeAll]
  | cons o l ih => simp [NativeAll, ih]

theorem nativeItems_iff (l : List (Option SymArg × PyObj)) :
    NativeItems l ↔ ∀ p ∈ l, (∀ k, p.1 ≠ some (.tok k)) ∧ Native p.2 := by
  induction l with
  | nil => simp [NativeItems]
  | cons p l ih => obtain ⟨k, o⟩ := p; simp [NativeItems, ih, and_assoc]

/-! ## Equality in the data model -/

mutual
/-- Equal Ion values: the fields of a struct have no order. -/
inductive Same {σ : Type} : Ion.Spec.Node σ → Ion.Spec.Node σ → Prop
  | scalar (f : Option σ) (a : List σ) (x : Scalar σ) : Same (.scalar f a x) (.scalar f a x)
  | seq (f : Option σ) (a : List σ) (ty : CType) (xs ys : List (Ion.Spec.Node σ)) : SameAll xs ys → Same (.cont f a ty xs) (.cont f a ty ys)
  | struct (f : Option σ) (a : List σ) (xs ys zs : List (Ion.Spec.Node σ)) : SameAll xs ys → ys.Perm zs →
      Same (.cont f a .struct xs) (.cont f a .struct zs)

/-- Equal, one by one. -/
inductive SameAll {σ : Type} : List (Ion.Spec.Node σ) → List (Ion.Spec.Node σ) → Prop
  | nil : SameAll [] []
  | cons (x y : Ion.Spec.Node σ) (xs ys : List (Ion.Spec.Node σ)) : Same x y → SameAll xs ys → SameAll (x :: xs) (y :: ys)
end

/-- Without later repetitions. -/
def firsts {α : Type} [DecidableEq α] : List α → List α
  | [] => []
  | a :: l => a :: (firsts l).filter (· ≠ a)

/-- Fields grouped by their names: names in the order of their first fields, fields with the same name in order. -/
def grouped (xs : List Val) : List Val :=
  (firsts (xs.filterMap Node.field)).flatMap fun name => xs.filter fun n => n.field = some name

mutual
/-- The second value is the first one with the fields of all structs grouped: what is kept of a value in `IonPyDict`s. -/
inductive Kept : Val → Val → Prop
  | scalar (f : Option (Option Text)) (a : List (Option Text)) (x : Scalar (Option Text)) : Kept (.scalar f a x) (.scalar f a x)
  | seq (f : Option (Option Text)) (a : List (Option Text)) (ty : CType) (xs ys : List Val) : ty ≠ .struct → KeptAll xs ys →
      Kept (.cont f a ty xs) (.cont f a ty ys)
  | struct (f : Option (Option Text)) (a : List (Option Text)) (xs ys : List Val) : KeptAll xs ys → (∀ y ∈ ys, y.field.isSome) →
      Kept (.cont f a .struct xs) (.cont f a .struct (grouped ys))
/-- One by one. -/
inductive KeptAll : List Val → List Val → Prop
  | nil : KeptAll [] []
  | cons (x y : Val) (xs ys : List Val) : Kept x y → KeptAll xs ys → KeptAll (x :: xs) (y :: ys)
end

/-! ## Contents -/

mutual
/-- All symbols in an object: keys, annotations, and symbol values (also texts, which may be symbol values). -/
def symbolsIn : PyObj → List SymArg
  | .none => []
  | .null _ ann => ann
  | .scalar (.plain _) v => (asSymbol v).toList
  | .scalar (.ion _ ann) v => ann ++ (asSymbol v).toList
  | .seq (.plain _) elems => symbolsInAll elems
  | .seq (.ion _ ann) elems => ann ++ symbolsInAll elems
  | .dict (.plain _) items => symbolsInItems items
  | .dict (.ion _ ann) items => ann ++ symbolsInItems items
  | .other _ => []
/-- `symbolsIn` for a list. -/
def symbolsInAll : List PyObj → List SymArg
  | [] => []
  | o :: os => symbolsIn o ++ symbolsInAll os
/-- `symbolsIn` for the items of a dictionary. -/
def symbolsInItems : List (Option SymArg × PyObj) → List SymArg
  | [] => []
  | (key, o) :: items => key.toList ++ symbolsIn o ++ symbolsInItems items
end

mutual
/-- All scalar Python values in an object. -/
def valuesIn : PyObj → List PyVal
  | .scalar _ v => [v]
  | .seq _ elems => valuesInAll elems
  | .dict _ items => valuesInItems items
  | _ => []
/-- `valuesIn` for a list. -/
def valuesInAll : List PyObj → List PyVal
  | [] => []
  | o :: os => valuesIn o ++ valuesInAll os
/-- `valuesIn` for the items of a dictionary. -/
def valuesInItems : List (Option SymArg × PyObj) → List PyVal
  | [] => []
  | (_, o) :: items => valuesIn o ++ valuesInItems items
end

mutual
/-- The classes of all objects without Ion nature in an object. -/
def classesIn : PyObj → List Cls
  | .none => [.noneType]
  | .null _ _ => []
  | .scalar (.plain c) _ => [c]
  | .scalar (.ion _ _) _ => []
  | .seq (.plain c) elems => c :: classesInAll elems
  | .seq (.ion _ _) elems => classesInAll elems
  | .dict (.plain c) items => c :: classesInItems items
  | .dict (.ion _ _) items => classesInItems items
  | .other c => [c]
/-- `classesIn` for a list. -/
def classesInAll : List PyObj → List Cls
  | [] => []
  | o :: os => classesIn o ++ classesInAll os
/-- `classesIn` for the items of a dictionary. -/
def classesInItems : List (Option SymArg × PyObj) → List Cls
  | [] => []
  | (_, o) :: items => classesIn o ++ classesInItems items
end

end Ion.Simple.Spec
