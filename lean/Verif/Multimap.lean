import Verif.PyDict
/-!
# Multimap

Models `Multimap` and `MultimapValue` of `amazon/ion/core.py:601-679`, the Python type of Ion structs.
-/
namespace Ion

/-- `core.py:612 Multimap.__store`, an `OrderedDict` from keys to `MultimapValue`s (`core.py:654-679`, a list). -/
abbrev Multimap (κ ν : Type) := PyDict κ (List ν)

namespace PyDict
/-- `del d[k]`, `none` for `KeyError`. -/
def del {κ ν : Type} [DecidableEq κ] (d : PyDict κ ν) (k : κ) : Option (PyDict κ ν) :=
  match d with
  | [] => none
  | (k', v) :: d => if k' = k then some d else (del d k).map ((k', v) :: ·)
end PyDict

namespace Multimap
variable {κ ν : Type} [DecidableEq κ]

/-- `core.py:623-624 __setitem__`. -/
def setItem (m : Multimap κ ν) (k : κ) (v : ν) : Multimap κ ν := PyDict.set m k [v]

/-- `core.py:610-615 __init__` from a dictionary's items. -/
def new (items : List (κ × ν)) : Multimap κ ν := items.foldl (fun m p => setItem m p.1 p.2) []

/-- `core.py:617-618 __getitem__`. -/
def getItem (m : Multimap κ ν) (k : κ) : Except PyErr ν :=
  match PyDict.get m k with
  | none => .error .keyError
  | some vs => match vs[vs.length - 1]? with
    | none => .error .indexError
    | some v => .ok v

/-- `core.py:620-621 __delitem__`. -/
def delItem (m : Multimap κ ν) (k : κ) : Except PyErr (Multimap κ ν) :=
  match PyDict.del m k with
  | none => .error .keyError
  | some m => .ok m

/-- `core.py:626-627 __len__`. -/
def len (m : Multimap κ ν) : Nat := (m.map fun p => p.2.length).sum

/-- `core.py:633-637 add_item`; `MultimapValue.append` is `MutableSequence.append`, i.e. `insert(len(self), value)`, which
calls `__setitem__`, which calls `list.insert` (`core.py:662-673`). -/
def addItem (m : Multimap κ ν) (k : κ) (v : ν) : Multimap κ ν :=
  match PyDict.get m k with
  | some vs => PyDict.set m k (vs ++ [v])
  | none => setItem m k v

/-- `core.py:639-640 get_all_values`. -/
def getAllValues (m : Multimap κ ν) (k : κ) : Except PyErr (List ν) :=
  match PyDict.get m k with
  | none => .error .keyError
  | some vs => .ok vs

/-- `core.py:642-645 iteritems`, `items`. -/
def items (m : Multimap κ ν) : List (κ × ν) := m.flatMap fun p => p.2.map fun v => (p.1, v)

end Multimap
end Ion
