import Verif.TextSpec
import Verif.ManagedSpec
import Verif.SimpleSpec
import Verif.Props.RoundTrip
/-!
# Specification: symbol tables in Ion text

What the values of a text document mean when it contains version markers and local symbol tables.  Values are given with
their symbols by text (`Val`).  Local symbol tables are described in the form in which the Ion specification defines them;
what it calls open content is only allowed as far as it consists of scalars.
-/
namespace Ion.TextSpec
open Ion Ion.Spec Ion.Simple.Spec

/-- The text that a symbol in Ion text stands for, where `t` says what symbol IDs mean. -/
def symbolText (t : Table) : TSym → Except PyErr (Option Text)
  | .text s => .ok (some s)
  | .sid n => t.text n

/-- A field of an element of `imports`: `name`, `version` and `max_id` count if they have the right type. -/
def importField (i : Import) (name : Option Text) (x : Scalar (Option Text)) : Import :=
  if name = some TEXT_NAME then
    match x with
    | .string s => { i with name := some s }
    | .null .string => { i with name := none }
    | _ => i
  else if name = some TEXT_VERSION then
    match x with
    | .int n => { i with version := some n }
    | .null .int => { i with version := none }
    | _ => i
  else if name = some TEXT_MAX_ID then
    match x with
    | .int n => { i with maxId := some n }
    | .null .int => { i with maxId := none }
    | _ => i
  else i

/-- An element of `imports`. -/
def importOf (i : Import) : List Val → Option Import
  | [] => some i
  | .scalar (some f) _ x :: ns => importOf (importField i f x) ns
  | _ => none

/-- The list `imports`: the imported symbols.  Scalars in it are ignored. -/
def importsOf (catalog : Catalog) : List Val → Option Table
  | [] => some []
  | .scalar _ _ _ :: ns => importsOf catalog ns
  | .cont _ _ .struct fields :: ns =>
    match importOf {} fields with
    | none => none
    | some i => match i.table catalog, importsOf catalog ns with
      | .ok first, some rest => some (first ++ rest)
      | _, _ => none
  | _ => none

/-- The list `symbols`: strings, or `null.string` for a symbol without text. -/
def declaredOf : List Val → Option (List (Option Text))
  | [] => some []
  | .scalar _ _ (.string s) :: ns => (declaredOf ns).map (some s :: ·)
  | .scalar _ _ (.null .string) :: ns => (declaredOf ns).map (none :: ·)
  | _ => none

/-- A field of a local symbol table; `t` is the table in force before.  A table is not appended to one that imports symbols
from a table called `$ion` (the reader drops them, see `C23`). -/
def tableField (catalog : Catalog) (t : Table) (d : Draft) : Val → Option Draft
  | .cont name _ .list items =>
    if name = some (some TEXT_SYMBOLS) then (declaredOf items).map fun l => { d with symbols := d.symbols ++ l }
    else if name = some (some TEXT_IMPORTS) then (importsOf catalog items).map fun l => { d with base := systemTable ++ l }
    else none
  | .cont _ _ _ _ => none
  | .scalar name _ x =>
    if name = some (some TEXT_IMPORTS) then
      match x with
      | .symbol s =>
        if s = some TEXT_ION_SYMBOL_TABLE then
          if (t.drop 9).all (fun m => m.2.map (·.name) ≠ some TEXT_ION) then some { d with base := t } else none
        else some d
      | .null .symbol => none
      | _ => some d
    else some d

/-- The fields of a local symbol table. -/
def tableFields (catalog : Catalog) (t : Table) (d : Draft) : List Val → Option Draft
  | [] => some d
  | n :: ns => match tableField catalog t d n with
    | none => none
    | some d' => tableFields catalog t d' ns

/-- The table that a local symbol table with these fields defines. -/
def tableOf (catalog : Catalog) (t : Table) (fields : List Val) : Option Table := (tableFields catalog t {} fields).map Draft.table

/-- A document whose items (`none` for a version marker) stand for the given values of the user; `t` is the table in force at
its beginning. -/
inductive Denotes (catalog : Catalog) : Table → List (Option (Spec.Node TSym)) → List Val → Prop
  | nil (t : Table) : Denotes catalog t [] []
  | marker (t : Table) (items : List (Option (Spec.Node TSym))) (values : List Val) : Denotes catalog systemTable items values →
      Denotes catalog t (none :: items) values
  | value (t : Table) (n : Spec.Node TSym) (v : Val) (items : List (Option (Spec.Node TSym))) (values : List Val) :
      n.map (symbolText t) = v.map .ok → ¬ SystemLike v → Denotes catalog t items values → Denotes catalog t (some n :: items) (v :: values)
  /-- the symbol `$ion_1_0`, written in another way, says nothing -/
  | nop (t : Table) (n : Spec.Node TSym) (f : Option (Option Text)) (items : List (Option (Spec.Node TSym))) (values : List Val) :
      n.map (symbolText t) = Spec.Node.map .ok (.scalar f [] (.symbol (some TEXT_ION_1_0))) → Denotes catalog t items values → Denotes catalog t (some n :: items) values
  | table (t t' : Table) (n : Spec.Node TSym) (f : Option (Option Text)) (a : List (Option Text)) (fields : List Val) (items : List (Option (Spec.Node TSym))) (values : List Val) :
      n.map (symbolText t) = Spec.Node.map .ok (.cont f (some TEXT_ION_SYMBOL_TABLE :: a) .struct fields) → tableOf catalog t fields = some t' →
      Denotes catalog t' items values → Denotes catalog t (some n :: items) values

end Ion.TextSpec
