import Verif.Props.RawReader
import Verif.ManagedReader
/-!
# Specification: symbol tables in a document

What the user of a document sees: version markers and local symbol tables are not values; they determine what the symbol
IDs of the values that follow them mean.  This file says so for a document given as a tree; it is independent of the way
the reader processes events.  It follows "Symbols" of the Ion 1.0 specification.  Where that document says nothing (repeated
fields, requests that the catalog refuses) a choice is made, and an error is the exception that the code raises.
-/
namespace Ion.Spec
open Ion

/-- What a symbol ID means: a text (or an unknown text), and the place in a shared table that it was imported from. -/
abbrev Meaning := Option Text × Option ImportLocation

/-- A symbol table: the meaning of the IDs 1, 2, ... -/
abbrev Table := List Meaning

/-- The table in force after a version marker. -/
def systemTable : Table :=
  ([TEXT_ION, TEXT_ION_1_0, TEXT_ION_SYMBOL_TABLE, TEXT_NAME, TEXT_VERSION, TEXT_IMPORTS, TEXT_SYMBOLS, TEXT_MAX_ID,
    TEXT_ION_SHARED_SYMBOL_TABLE].zipIdx 1).map fun (t, i) => (some t, some ⟨TEXT_ION, i⟩)

/-- A symbol ID as a token: zero has no text; an ID beyond the table is an error. -/
def Table.find (t : Table) (sid : Nat) : Except PyErr SymbolToken :=
  if sid = 0 then .ok ⟨none, some 0, none⟩
  else match t[sid - 1]? with
    | some (text, location) => .ok ⟨text, some sid, location⟩
    | none => .error .ionException

/-- The text of a symbol ID. -/
def Table.text (t : Table) (sid : Nat) : Except PyErr (Option Text) := do
  let k ← t.find sid
  pure k.text

/-- The texts of all symbol IDs in a list. -/
def Table.findAll (t : Table) : List Nat → Except PyErr (List SymbolToken)
  | [] => .ok []
  | n :: ns => do
    let k ← t.find n
    let ks ← t.findAll ns
    pure (k :: ks)

/-- A request for a shared table. -/
structure Import where
  name : Option Text := none
  version : Option Int := some 1
  maxId : Option Int := none

/-- A field of an element of `imports`.  The fields `name`, `version` and `max_id` count if they are scalars of the right
type; the rest is ignored. -/
def Import.field (t : Table) (i : Import) : Node Nat → Except PyErr Import
  | .cont .. => .ok i
  | .scalar none _ _ => .error .attributeError
  | .scalar (some f) _ x => do
    let name ← t.text f
    if name = some TEXT_NAME then
      match x with
      | .string s => pure { i with name := some s }
      | .null .string => pure { i with name := none }
      | _ => pure i
    else if name = some TEXT_VERSION then
      match x with
      | .int n => pure { i with version := some n }
      | .null .int => pure { i with version := none }
      | _ => pure i
    else if name = some TEXT_MAX_ID then
      match x with
      | .int n => pure { i with maxId := some n }
      | .null .int => pure { i with maxId := none }
      | _ => pure i
    else pure i

/-- All fields of an element of `imports`, in order. -/
def Import.fields (t : Table) (i : Import) : List (Node Nat) → Except PyErr Import
  | [] => .ok i
  | n :: ns => do
    let i' ← i.field t n
    i'.fields t ns

/-- The symbols of an imported table, as the catalog resolves the request (C19); nothing without a name. -/
def Import.table (catalog : Catalog) (i : Import) : Except PyErr Table :=
  match i.name with
  | none => .ok []
  | some name => do
    let s ← catalog.resolve name i.version i.maxId
    pure (s.symbols.map fun k => (k.text, k.location))

/-- The elements of the list `imports`; elements other than structs are ignored. -/
def importAll (catalog : Catalog) (t : Table) : List (Node Nat) → Except PyErr Table
  | [] => .ok []
  | .cont _ _ .struct fields :: ns => do
    let i ← Import.fields t {} fields
    let first ← i.table catalog
    let rest ← importAll catalog t ns
    pure (first ++ rest)
  | _ :: ns => importAll catalog t ns

/-- An element of the list `symbols`: anything but a string stands for a symbol without text. -/
def declared : Node Nat → Option Text
  | .scalar _ _ (.string s) => some s
  | _ => none

/-- A local symbol table that has been read in part: what it imports (the system symbols at least) and its own symbols. -/
structure Draft where
  base : Table := systemTable
  symbols : List (Option Text) := []

/-- A field of a local symbol table, given the text of its name; `t` is the table in force before: `symbols: [...]`,
`imports: [...]`, `imports: $ion_symbol_table`. -/
def Draft.named (catalog : Catalog) (t : Table) (d : Draft) (name : Option Text) : Node Nat → Except PyErr Draft
  | .cont _ _ .list items =>
    if name = some TEXT_SYMBOLS then pure { d with symbols := d.symbols ++ items.map declared }
    else if name = some TEXT_IMPORTS then do
      let tables ← importAll catalog t items
      pure { d with base := systemTable ++ tables }
    else pure d
  | .scalar _ _ (.symbol s) =>
    if name = some TEXT_IMPORTS then do
      let text ← t.text s
      if text = some TEXT_ION_SYMBOL_TABLE then pure { d with base := t } else pure d
    else pure d
  | .scalar _ _ (.null .symbol) => if name = some TEXT_IMPORTS then .error .attributeError else pure d
  | _ => pure d

/-- The text of a field name, if there is one. -/
def Table.fieldText (t : Table) : Option Nat → Except PyErr (Option Text)
  | none => pure none
  | some f => t.text f

/-- A field of a local symbol table. -/
def Draft.field (catalog : Catalog) (t : Table) (d : Draft) (n : Node Nat) : Except PyErr Draft := do
  let name ← t.fieldText n.field
  d.named catalog t name n

/-- All fields of a local symbol table, in order. -/
def Draft.fields (catalog : Catalog) (t : Table) (d : Draft) : List (Node Nat) → Except PyErr Draft
  | [] => .ok d
  | n :: ns => do
    let d' ← d.field catalog t n
    d'.fields catalog t ns

/-- The table that a local symbol table defines: what it imports, then its own symbols. -/
def Draft.table (d : Draft) : Table := d.base ++ d.symbols.map fun s => (s, none)

/-- The table that a local symbol table with these fields defines. -/
def localTable (catalog : Catalog) (t : Table) (fields : List (Node Nat)) : Except PyErr Table := do
  let d ← Draft.fields catalog t {} fields
  pure d.table

/-- What a top-level value is, in a context where `t` is in force: `some t'` for a system value after which `t'` is in
force (a struct annotated `$ion_symbol_table` first, or the plain symbol `$ion_1_0`), `none` for a value of the user. -/
def systemValue (catalog : Catalog) (t : Table) : Node Nat → Except PyErr (Option Table)
  | .scalar _ [] (.symbol s) => do
    let text ← t.text s
    pure (if text = some TEXT_ION_1_0 then some t else none)
  | .cont _ (a :: _) .struct fields => do
    let text ← t.text a
    if text = some TEXT_ION_SYMBOL_TABLE then do
      let t' ← localTable catalog t fields
      pure (some t')
    else pure none
  | _ => pure none

/-! ## What the user sees -/

open Ion.ManagedReader (Event)

/-- The Python value of a scalar, symbols resolved. -/
def Table.value (t : Table) : Scalar Nat → Except PyErr (Option PyVal)
  | .symbol n => do
    let k ← t.find n
    pure (some (.sym k))
  | x => pure (pyValue x)

/-- A field name, resolved. -/
def Table.field (t : Table) : Option Nat → Except PyErr (Option SymbolToken)
  | none => pure none
  | some f => do
    let k ← t.find f
    pure (some k)

/-- The event that a value at some depth starts with; `t` is the table in force. -/
def Node.seen (t : Table) (depth : Nat) : Node Nat → Event
  | .scalar f a x => { eventType := .scalar, ionType := some x.ty, value := t.value x, fieldName := t.field f, annotations := t.findAll a, depth := some depth }
  | .cont f a ty _ => { eventType := .containerStart, ionType := some ty.ty, value := .ok none, fieldName := t.field f, annotations := t.findAll a, depth := some depth }

/-- The event that ends a container at some depth. -/
def endSeen (depth : Nat) (ty : CType) : Event :=
  { eventType := .containerEnd, ionType := some ty.ty, value := .ok none, fieldName := .ok none, annotations := .ok [], depth := some depth }

/-- The end of the stream. -/
def streamEndSeen : Event :=
  { eventType := .streamEnd, ionType := none, value := .ok none, fieldName := .ok none, annotations := .ok [], depth := none }

/-- A user's place in a document: the table in force; the open containers, innermost first, each with its values that are
still to come; what is still to come at the top level. -/
structure View where
  table : Table
  levels : List (CType × List (Node Nat))
  top : List Top

/-- A value is visited: a container is entered. -/
def View.visit (v : View) : Node Nat → View
  | .scalar .. => v
  | .cont _ _ ty items => { v with levels := (ty, items) :: v.levels }

/-- `NEXT` at the top level: system values are passed over. -/
def nextTop (catalog : Catalog) (t : Table) : List Top → Except PyErr (Option (Event × View))
  | [] => .ok none
  | .marker :: ts => nextTop catalog systemTable ts
  | .value n :: ts => do
    match ← systemValue catalog t n with
    | some t' => nextTop catalog t' ts
    | none => pure (some (n.seen t 0, View.visit ⟨t, [], ts⟩ n))

/-- `NEXT`; `none` at the end of the document. -/
def View.next (catalog : Catalog) (v : View) : Except PyErr (Option (Event × View)) :=
  match v.levels with
  | (ty, []) :: ls => pure (some (endSeen ls.length ty, { v with levels := ls }))
  | (ty, n :: ns) :: ls => pure (some (n.seen v.table (ls.length + 1), View.visit { v with levels := (ty, ns) :: ls } n))
  | [] => nextTop catalog v.table v.top

/-- `SKIP`; `none` at the top level. -/
def View.skip (v : View) : Option (Event × View) :=
  match v.levels with
  | (ty, _) :: ls => some (endSeen ls.length ty, { v with levels := ls })
  | [] => none

/-- What a sequence of requests delivers.  It ends with an exception if a request is illegal, if a symbol ID that decides
whether a value is a system value is not defined, or if a symbol table is refused; after the end of the stream, asking for
more is an error. -/
def View.run (catalog : Catalog) (v : View) : List Request → List (Except PyErr Event)
  | [] => []
  | .next :: rs => match v.next catalog with
    | .ok (some (e, v')) => .ok e :: v'.run catalog rs
    | .ok none => .ok streamEndSeen :: (if rs = [] then [] else [.error .typeError])
    | .error err => [.error err]
  | .skip :: rs => match v.skip with
    | some (e, v') => .ok e :: v'.run catalog rs
    | none => [.error .typeError]

/-- The local symbol tables of the document contain nothing on which the code is known to deviate from the specification:
the elements of `symbols` are strings (or `null.string`), and no table is appended to one that has symbols imported from a
table called `$ion`. -/
def PlainField (t : Table) : Node Nat → Prop
  | .cont (some f) _ .list items =>
    t.text f = .ok (some TEXT_SYMBOLS) → ∀ n ∈ items, ∃ g a x, n = .scalar g a x ∧ x.ty = .string
  | .scalar (some f) _ (.symbol s) =>
    t.text f = .ok (some TEXT_IMPORTS) → t.text s = .ok (some TEXT_ION_SYMBOL_TABLE) →
      ∀ m ∈ t.drop 9, m.2.map (·.name) ≠ some TEXT_ION
  | _ => True

/-- `PlainField` for all tables of the document. -/
def Plain (catalog : Catalog) (t : Table) : List Top → Prop
  | [] => True
  | .marker :: ts => Plain catalog systemTable ts
  | .value n :: ts =>
    (∀ f b as fields, n = .cont f (b :: as) .struct fields → t.text b = .ok (some TEXT_ION_SYMBOL_TABLE) →
      ∀ m ∈ fields, PlainField t m) ∧
    ∀ t', systemValue catalog t n = .ok (some t') ∨ (systemValue catalog t n = .ok none ∧ t' = t) → Plain catalog t' ts

/-! ## The values of a document -/

/-- The values of the user in a document, each with the table in force. -/
def userValues (catalog : Catalog) (t : Table) : List Top → Except PyErr (List (Table × Node Nat))
  | [] => .ok []
  | .marker :: ts => userValues catalog systemTable ts
  | .value n :: ts => do
    match ← systemValue catalog t n with
    | some t' => userValues catalog t' ts
    | none => do
      let rest ← userValues catalog t ts
      pure ((t, n) :: rest)

mutual
/-- All events of a value at some depth. -/
def Node.events (t : Table) (depth : Nat) : Node Nat → List Event
  | .scalar f a x => [(Node.scalar f a x).seen t depth]
  | .cont f a ty items => (Node.cont f a ty items).seen t depth :: (eventsList t (depth + 1) items ++ [endSeen depth ty])

/-- All events of a list of values. -/
def eventsList (t : Table) (depth : Nat) : List (Node Nat) → List Event
  | [] => []
  | n :: ns => n.events t depth ++ eventsList t depth ns
end

end Ion.Spec
