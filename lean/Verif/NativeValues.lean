import Verif.Simple
import Verif.Multimap
/-!
# Values with Ion nature made by a program

Models `_IonNature._copy`, `_to_constructor_args` and `from_value` of `amazon/ion/simple_types.py:56-105`, with the
`_to_constructor_args` of `IonPySymbol` (158-170), `IonPyTimestamp` (173-187) and `IonPyNull` (190-209), and what the
constructors make of the arguments.
-/
namespace Ion.Simple
open Ion

/-- The classes with Ion nature: `simple_types.py:147-154` (`IonPyInt`, which is also `IonPyBool`, `IonPyFloat`, `IonPyDecimal`,
`IonPyText`, `IonPyBytes`), 158 `IonPySymbol`, 173 `IonPyTimestamp`, 190 `IonPyNull`, 216-217 `IonPyList`, `IonPyDict`. -/
inductive NatureCls where
  | int | float | decimal | text | bytes | symbol | timestamp | null | list | dict
  deriving DecidableEq

/-- `cls(*args, **kwargs)` with `args, kwargs = cls._to_constructor_args(value)`, and the given type and annotations set on the
result (`simple_types.py:61-65, 101-105`).  `none`: the value is not of the class that `cls` extends (nor what
`_to_constructor_args` provides for), and what Python's conversions make of it is left out.  `int(True)` is 1; a token gives
its three parts and a text only a text (159-166); a timestamp gives its fields, precision and fraction (`rebuildTime`);
`IonPyNull` ignores the value (207-209); `list` copies the elements; `Multimap.__init__` (`core.py:610-615`) sets each item of
`value.items()`. -/
def natureOf (cls : NatureCls) (k : Kind) (value : PyObj) : Option (Except PyErr PyObj) :=
  match cls, value with
  | .int, .scalar _ (.int i) => some (.ok (.scalar k (.int i)))
  | .int, .scalar _ (.bool b) => some (.ok (.scalar k (.int (if b then 1 else 0))))
  | .float, .scalar _ (.float b) => some (.ok (.scalar k (.float b)))
  | .decimal, .scalar _ (.decimal d) => some (.ok (.scalar k (.decimal d)))
  | .decimal, .scalar _ (.decimalSpecial b) => some (.ok (.scalar k (.decimalSpecial b)))
  | .text, .scalar _ (.str t) => some (.ok (.scalar k (.str t)))
  | .bytes, .scalar _ (.bytes b) => some (.ok (.scalar k (.bytes b)))
  | .symbol, .scalar _ (.sym s) => some (match SymbolToken.new s.text s.sid s.location with
    | .error err => .error err
    | .ok s => .ok (.scalar k (.sym s)))
  | .symbol, .scalar _ (.str t) => some (match SymbolToken.new (some t) none none with
    | .error err => .error err
    | .ok s => .ok (.scalar k (.sym s)))
  | .timestamp, .scalar _ (.timestamp t) => some (match rebuildTime t with
    | .error err => .error err
    | .ok t => .ok (.scalar k (.timestamp (.ts t))))
  | .list, .seq _ elems => some (.ok (.seq k elems))
  | .dict, .dict _ items => some (.ok (.dict k (Multimap.new items).items))
  | .null, _ => match k with
    | .ion ty ann => some (.ok (.null ty ann))
    | .plain _ => none
  | _, _ => none

/-- `simple_types.py:88-105 from_value`. -/
def fromValue (cls : NatureCls) (ty : IonType) (value : PyObj) (ann : List SymArg := []) : Option (Except PyErr PyObj) :=
  match value with
  | .none => some (.ok (.null (some ty) ann))
  | value => natureOf cls (.ion (some ty) ann) value

/-- The class of an object with Ion nature, by its contents. -/
def natureClass : PyVal → NatureCls
  | .bool _ => .int
  | .int _ => .int
  | .float _ => .float
  | .decimal _ => .decimal
  | .decimalSpecial _ => .decimal
  | .timestamp _ => .timestamp
  | .sym _ => .symbol
  | .str _ => .text
  | .bytes _ => .bytes

/-- `simple_types.py:56-65 _copy`; `none`: the object has no Ion nature (and so no `_copy`). -/
def copy : PyObj → Option (Except PyErr PyObj)
  | .null ty ann => natureOf .null (.ion ty ann) (.null ty ann)
  | .scalar (.ion ty ann) v => natureOf (natureClass v) (.ion ty ann) (.scalar (.ion ty ann) v)
  | .seq (.ion ty ann) elems => natureOf .list (.ion ty ann) (.seq (.ion ty ann) elems)
  | .dict (.ion ty ann) items => natureOf .dict (.ion ty ann) (.dict (.ion ty ann) items)
  | _ => none

end Ion.Simple
