import Verif.Simple
import Verif.Base64Spec
/-!
# JSON down-conversion

Models `amazon/ion/json_encoder.py:34-69`: `IonToJSONEncoder.default`, which turns an object with Ion nature into plain
Python objects that the standard `json` module writes as they are.

Simplifications: `float(decimal)` and `str(timestamp)` are parameters, and so is what `default` does in its last branch,
where it calls the method of the base class in the external package `jsonconversion`, modelled as an exception.  The class
of a scalar is given by the constructor of its value (`IonPyBool`, a subclass of `int`, and `IonPyInt` hold an int).
-/
namespace Ion.Json
open Ion Ion.Simple

/-- A plain Python object made of `None`, `bool`, `int`, `float`, `str`, `list` and `dict`. -/
inductive Json where
  | null
  | bool (b : Bool)
  | int (i : Int)
  | float (bits : UInt64)
  | str (t : Text)
  | list (l : List Json)
  | dict (l : List (Option Text × Json))

/-- The conversions of the Python library the module uses. -/
structure Lib where
  /-- `float(d)` -/
  floatOf : Dec → UInt64
  /-- `str(t)` -/
  timeStr : Scalars.TimeVal → Text

/-- `"inf" in str(o) or "nan" in str(o)`: not finite. -/
def notFinite (bits : UInt64) : Bool := TextWriter.isNan bits || TextWriter.isInf bits

/-- `json_encoder.py:43-69` for a value that is not a container. -/
def scalarDefault (P : Lib) (ty : IonType) (v : PyVal) : Except PyErr Json :=
  match ty, v with
  | .bool, .bool b => .ok (.bool b)
  | .bool, .int i => .ok (.bool (decide (i = 1)))
  | .int, .int i => .ok (.int i)
  | .blob, .bytes b => .ok (.str (TextWriter.b64encode (TextWriter.byteNums b)))
  | .clob, .bytes b => .ok (.str (TextWriter.byteNums b))
  | .decimal, .decimal d => .ok (.float (P.floatOf d))
  | .symbol, .sym k => .ok (match k.text with | some t => .str t | none => .null)
  | .timestamp, .timestamp t => .ok (.str (P.timeStr t))
  | .string, .str t => .ok (.str t)
  | .float, .float bits => .ok (if notFinite bits then .null else .float bits)
  | _, _ => .error .typeError

/-- A key of a dictionary.  A token as key is passed on, and `json` refuses it: in the model, an exception. -/
def keyText : Option SymArg → Except PyErr (Option Text)
  | none => .ok none
  | some (.text t) => .ok (some t)
  | some (.tok _) => .error .typeError

/-- `{key: self.default(o[key]) for key in o.keys()}` (`json_encoder.py:51`): the keys of the multimap in order, and
`o[key]`. -/
def collect (m : Multimap (Option SymArg) (Except PyErr Json)) : List (Option SymArg) → Except PyErr (List (Option Text × Json))
  | [] => .ok []
  | key :: keys => match keyText key, Multimap.getItem m key with
    | .error err, _ => .error err
    | _, .error err => .error err
    | _, .ok (.error err) => .error err
    | .ok k, .ok (.ok j) => match collect m keys with
      | .error err => .error err
      | .ok l => .ok ((k, j) :: l)

mutual
/-- `json_encoder.py:41-69 default`. -/
def default (P : Lib) : PyObj → Except PyErr Json
  | .none => .error .typeError
  | .null _ _ => .ok .null
  | .scalar (.ion (some ty) _) v => scalarDefault P ty v
  | .scalar _ _ => .error .typeError
  | .seq (.ion (some ty) _) elems =>
    if ty = .list ∨ ty = .sexp then
      match defaultAll P elems with
      | .error err => .error err
      | .ok l => .ok (.list l)
    else .error .typeError
  | .seq _ _ => .error .typeError
  | .dict (.ion (some ty) _) items =>
    if ty = .struct then
      let m := (itemResults P items).foldl (fun m p => Multimap.addItem m p.1 p.2) []
      match collect m (PyDict.keys m) with
      | .error err => .error err
      | .ok l => .ok (.dict l)
    else .error .typeError
  | .dict _ _ => .error .typeError
  | .other _ => .error .typeError
/-- `list(map(self.default, o))`, `json_encoder.py:49`. -/
def defaultAll (P : Lib) : List PyObj → Except PyErr (List Json)
  | [] => .ok []
  | o :: os => match default P o with
    | .error err => .error err
    | .ok j => match defaultAll P os with
      | .error err => .error err
      | .ok l => .ok (j :: l)
/-- The items of a multimap with what `self.default` makes of the value; only those `o[key]` finds are asked for. -/
def itemResults (P : Lib) : List (Option SymArg × PyObj) → List (Option SymArg × Except PyErr Json)
  | [] => []
  | (key, o) :: items => (key, default P o) :: itemResults P items
end

end Ion.Json
