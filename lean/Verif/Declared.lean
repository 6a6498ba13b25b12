import Verif.PyDict
/-!
# Declared enumerations and records

Models the metaclasses of `amazon/ion/util.py:28-164`: `Enum` and `record`, and the part of `collections.namedtuple` and of
Python's binding of arguments that `record` relies on.

Simplifications: enumerations are direct subclasses of `Enum` (all those of the repository are); a class body is a list of
names and values; a value that is an `int` is its number; a pair in a declaration of a record begins with a `str`; `valid` stands
for `str.isidentifier() and not keyword.iskeyword()`.
-/
namespace Ion.Declared
open Ion

/-! ## `Enum` -/

/-- A value in the body of a class. -/
inductive Attr where
  /-- an `int` -/
  | int (n : Int)
  /-- something `callable`, or a `property` -/
  | method
  /-- anything else -/
  | other
  deriving DecidableEq, Repr

/-- A member: `name` and `value` (`util.py:88-93`). -/
structure Member where
  name : Text
  value : Int
  deriving DecidableEq, Repr

/-- A class made by the metaclass: what is bound to its public names that are not methods, and the reverse index. -/
structure EnumClass where
  attributes : PyDict Text Member
  members : PyDict Int Member

/-- `attr_name.startswith('_')`. -/
def isPrivate : Text → Bool
  | 95 :: _ => true
  | _ => false

/-- `util.py:38-46`, the loop. -/
def bindMembers (c : EnumClass) : List (Text × Attr) → Except PyErr EnumClass
  | [] => .ok c
  | (name, a) :: rest =>
    if isPrivate name || a = .method then bindMembers c rest
    else match a with
      | .int n =>
        let m : Member := ⟨name, n⟩
        bindMembers ⟨PyDict.set c.attributes name m, PyDict.set c.members n m⟩ rest
      | _ => .error .typeError

/-- `util.py:34-50 _EnumMetaClass.__init__`. -/
def enumClass (body : List (Text × Attr)) : Except PyErr EnumClass := bindMembers ⟨[], []⟩ body

/-- `util.py:52-54 __getitem__`. -/
def EnumClass.lookup (c : EnumClass) (n : Int) : Except PyErr Member :=
  match PyDict.get c.members n with
  | some m => .ok m
  | none => .error .keyError

/-- `util.py:56-58 __iter__`. -/
def EnumClass.iter (c : EnumClass) : List Member := c.members.map (·.2)

/-- `E.NAME`. -/
def EnumClass.attribute (c : EnumClass) (name : Text) : Except PyErr Member :=
  match PyDict.get c.attributes name with
  | some m => .ok m
  | none => .error .attributeError

/-! ## `record` -/

/-- An entry in the declaration of a record. -/
inductive Decl (ν : Type) where
  /-- a `str` -/
  | plain (name : Text)
  /-- a pair -/
  | pair (name : Text) (value : ν)
  /-- anything else -/
  | other

/-- The class `namedtuple` makes: its fields, and the defaults of the last of them. -/
structure RecordClass (ν : Type) where
  names : List Text
  defaults : List ν

variable {ν : Type}

/-- `util.py:112-130`, the loop. -/
def bindFields (names : List Text) (defaults : List ν) (hasDefaults : Bool) : List (Decl ν) → Except PyErr (RecordClass ν)
  | [] => .ok ⟨names, defaults⟩
  | .plain n :: ds => if hasDefaults then .error .valueError else bindFields (names ++ [n]) defaults hasDefaults ds
  | .pair n v :: ds => bindFields (names ++ [n]) (defaults ++ [v]) true ds
  | .other :: _ => .error .valueError

/-- `collections.namedtuple`: names have to be identifiers, public, and different. -/
def checkNames (valid : Text → Bool) : List Text → Bool
  | [] => true
  | n :: ns => valid n && !isPrivate n && !ns.contains n && checkNames valid ns

/-- `util.py:100-137 _RecordMetaClass.__new__`; `decls` are the declarations of all the bases, in order. -/
def recordClass (valid : Text → Bool) (decls : List (Decl ν)) : Except PyErr (RecordClass ν) :=
  match bindFields [] [] false decls with
  | .error err => .error err
  | .ok c => if checkNames valid c.names then .ok c else .error .valueError

/-- Python's binding of arguments, from parameter number `i` of `n`; `kw` are the arguments given by name. -/
def bindArgs (defaults : List ν) (n : Nat) (kw : PyDict Text ν) : Nat → List Text → List ν → Except PyErr (List ν)
  | _, [], [] => .ok []
  | _, [], _ :: _ => .error .typeError
  | i, name :: names, a :: args =>
    if (PyDict.get kw name).isSome then .error .typeError
    else match bindArgs defaults n kw (i + 1) names args with
      | .error err => .error err
      | .ok vs => .ok (a :: vs)
  | i, name :: names, [] =>
    match PyDict.get kw name with
    | some v => match bindArgs defaults n kw (i + 1) names [] with
      | .error err => .error err
      | .ok vs => .ok (v :: vs)
    | none =>
      if i < n - defaults.length then .error .typeError
      else match defaults[i - (n - defaults.length)]? with
        | none => .error .typeError
        | some v => match bindArgs defaults n kw (i + 1) names [] with
          | .error err => .error err
          | .ok vs => .ok (v :: vs)

/-- A call of the class: the fields of the new record. -/
def RecordClass.call (c : RecordClass ν) (args : List ν) (kw : PyDict Text ν) : Except PyErr (List ν) :=
  if (PyDict.keys kw).all (fun k => c.names.contains k) then bindArgs c.defaults c.names.length kw 0 c.names args
  else .error .typeError

end Ion.Declared
