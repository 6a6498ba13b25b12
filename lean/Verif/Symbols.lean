import Verif.PyDict
/-!
# Symbol tokens, symbol tables and the catalog

Models `amazon/ion/symbols.py`.  Python's dynamic checks that an argument is a Unicode string are represented by types
(`Text`) and not modelled.
-/
namespace Ion

/-- `symbols.py:52-66 ImportLocation`. -/
structure ImportLocation where
  name : Text
  position : Nat
  deriving DecidableEq, Repr

/-- `symbols.py:69-89 SymbolToken`.  The constructor refuses two `None`s (line 89); `SymbolToken.new` models that. -/
structure SymbolToken where
  text : Option Text
  sid : Option Nat
  location : Option ImportLocation := none
  deriving DecidableEq, Repr

/-- `symbols.py:86-89 SymbolToken.__new__`. -/
def SymbolToken.new (text : Option Text) (sid : Option Nat) (location : Option ImportLocation := none) :
    Except PyErr SymbolToken :=
  if text.isNone && sid.isNone then .error .valueError else .ok ⟨text, sid, location⟩

/-- ASCII text literal as code points. -/
def textOf (s : String) : Text := s.toList.map Char.toNat

/-- `symbols.py:31 TEXT_ION` = `$ion` (spelled as code points so that the kernel can compute with it). -/
def TEXT_ION : Text := [36, 105, 111, 110]
/-- `symbols.py:32 TEXT_ION_1_0` = `$ion_1_0`. -/
def TEXT_ION_1_0 : Text := [36, 105, 111, 110, 95, 49, 95, 48]
/-- `symbols.py:33 TEXT_ION_SYMBOL_TABLE` = `$ion_symbol_table`. -/
def TEXT_ION_SYMBOL_TABLE : Text := [36, 105, 111, 110, 95, 115, 121, 109, 98, 111, 108, 95, 116, 97, 98, 108, 101]
/-- `symbols.py:34 TEXT_NAME` = `name`. -/
def TEXT_NAME : Text := [110, 97, 109, 101]
/-- `symbols.py:35 TEXT_VERSION` = `version`. -/
def TEXT_VERSION : Text := [118, 101, 114, 115, 105, 111, 110]
/-- `symbols.py:36 TEXT_IMPORTS` = `imports`. -/
def TEXT_IMPORTS : Text := [105, 109, 112, 111, 114, 116, 115]
/-- `symbols.py:37 TEXT_SYMBOLS` = `symbols`. -/
def TEXT_SYMBOLS : Text := [115, 121, 109, 98, 111, 108, 115]
/-- `symbols.py:38 TEXT_MAX_ID` = `max_id`. -/
def TEXT_MAX_ID : Text := [109, 97, 120, 95, 105, 100]
/-- `symbols.py:39 TEXT_ION_SHARED_SYMBOL_TABLE` = `$ion_shared_symbol_table`. -/
def TEXT_ION_SHARED_SYMBOL_TABLE : Text :=
  [36, 105, 111, 110, 95, 115, 104, 97, 114, 101, 100, 95, 115, 121, 109, 98, 111, 108, 95, 116, 97, 98, 108, 101]

example : TEXT_ION_SHARED_SYMBOL_TABLE = textOf "$ion_shared_symbol_table" := by decide
example : TEXT_ION_SYMBOL_TABLE = textOf "$ion_symbol_table" := by decide
example : [TEXT_ION, TEXT_ION_1_0, TEXT_NAME, TEXT_VERSION, TEXT_IMPORTS, TEXT_SYMBOLS, TEXT_MAX_ID]
  = ["$ion", "$ion_1_0", "name", "version", "imports", "symbols", "max_id"].map textOf := by decide

/-- `symbols.py:41-49` `SID_*`. -/
def SID_ION_SYMBOL_TABLE : Nat := 3
/-- see `SID_ION_SYMBOL_TABLE` -/
def SID_NAME : Nat := 4
/-- see `SID_ION_SYMBOL_TABLE` -/
def SID_VERSION : Nat := 5
/-- see `SID_ION_SYMBOL_TABLE` -/
def SID_IMPORTS : Nat := 6
/-- see `SID_ION_SYMBOL_TABLE` -/
def SID_SYMBOLS : Nat := 7
/-- see `SID_ION_SYMBOL_TABLE` -/
def SID_MAX_ID : Nat := 8

/-- `symbols.py:92-94 _system_symbol_token`. -/
def systemSymbolToken (text : Text) (sid : Nat) : SymbolToken := ⟨some text, some sid, some ⟨TEXT_ION, sid⟩⟩

/-- `symbols.py:97 SYMBOL_ZERO_TOKEN`. -/
def SYMBOL_ZERO_TOKEN : SymbolToken := ⟨none, some 0, none⟩

/-- `symbols.py:99-109 _SYSTEM_SYMBOL_TOKENS`. -/
def SYSTEM_SYMBOL_TOKENS : List SymbolToken :=
  [ systemSymbolToken TEXT_ION 1, systemSymbolToken TEXT_ION_1_0 2, systemSymbolToken TEXT_ION_SYMBOL_TABLE 3,
    systemSymbolToken TEXT_NAME 4, systemSymbolToken TEXT_VERSION 5, systemSymbolToken TEXT_IMPORTS 6,
    systemSymbolToken TEXT_SYMBOLS 7, systemSymbolToken TEXT_MAX_ID 8,
    systemSymbolToken TEXT_ION_SHARED_SYMBOL_TABLE 9 ]

/-- `symbols.py:112-119 _SymbolTableType` and its three constants. -/
inductive TableType where
  | system | shared | local
  deriving DecidableEq, Repr

/-- `is_system` flag of the constants of `symbols.py:124-126`. -/
def TableType.isSystem : TableType → Bool | .system => true | _ => false
/-- `is_shared` flag (true of the system table also). -/
def TableType.isShared : TableType → Bool | .system => true | .shared => true | .local => false
/-- `is_local` flag. -/
def TableType.isLocal : TableType → Bool | .local => true | _ => false

/-- `symbols.py:129-369 SymbolTable` instance attributes.  The attribute `imports` is never read by other code and is
left out. -/
structure SymbolTable where
  tableType : TableType
  name : Option Text
  version : Option Int
  isSubstitute : Bool
  maxId : Nat
  symbols : List SymbolToken
  mapping : PyDict Text SymbolToken
  deriving DecidableEq, Repr

namespace SymbolTable

/-- `symbols.py:213-218 __add`. -/
def add (t : SymbolTable) (token : SymbolToken) : SymbolTable :=
  { t with
    symbols := t.symbols ++ [token]
    mapping :=
      match token.text with
      | none => t.mapping
      | some text => if (PyDict.get t.mapping text).isNone then PyDict.set t.mapping text token else t.mapping }

/-- `symbols.py:200-205 __import_location` (only called on shared tables, which have a name). -/
def importLocation (t : SymbolTable) (sid : Nat) : ImportLocation := ⟨t.name.getD [], sid⟩

/-- `symbols.py:220-225 __add_shared`. -/
def addShared (t : SymbolTable) (original : SymbolToken) : SymbolTable :=
  let sid := t.maxId + 1
  let t := { t with maxId := sid }
  t.add ⟨original.text, some sid, some (t.importLocation sid)⟩

/-- `symbols.py:227-232 __add_import`. -/
def addImport (t : SymbolTable) (original : SymbolToken) : SymbolTable :=
  let sid := t.maxId + 1
  let t := { t with maxId := sid }
  t.add ⟨original.text, some sid, original.location⟩

/-- `symbols.py:234-244 __add_text`: the table and the token added. -/
def addText (t : SymbolTable) (text : Option Text) : SymbolTable × SymbolToken :=
  let sid := t.maxId + 1
  let t := { t with maxId := sid }
  let token : SymbolToken := ⟨text, some sid, if t.tableType.isShared then some (t.importLocation sid) else none⟩
  (t.add token, token)

/-- The condition of `symbols.py:187-189`: whether a token of an imported table is added to a non-shared table. -/
def importable (table : SymbolTable) (token : SymbolToken) : Bool :=
  !table.tableType.isLocal || token.location.all (fun l => l.name ≠ TEXT_ION)

/-- Loop body of `symbols.py:183-193`: import one table. -/
def importTable (t : SymbolTable) (table : SymbolTable) : SymbolTable :=
  table.symbols.foldl (fun t token =>
    if t.tableType.isShared then t.addShared token
    else if importable table token then t.addImport token
    else t) t

/-- `symbols.py:155-198 SymbolTable.__init__`. -/
def new (tableType : TableType) (symbols : List (Option Text)) (name : Option Text := none)
    (version : Option Int := none) (imports : Option (List SymbolTable) := none) (isSubstitute : Bool := false) :
    Except PyErr SymbolTable :=
  if tableType.isSystem && imports.isSome then .error .valueError
  else if tableType.isShared && (name.isNone || version.all (· ≤ 0)) then
    .error .valueError
  else if tableType.isLocal && (name.isSome || version.isSome) then .error .valueError
  else if tableType.isSystem && name ≠ some TEXT_ION then .error .valueError
  else
    let t : SymbolTable := ⟨tableType, name, version, isSubstitute, 0, [], []⟩
    let t := if tableType.isLocal || tableType.isSystem then
        { SYSTEM_SYMBOL_TOKENS.foldl add t with maxId := SYSTEM_SYMBOL_TOKENS.length }
      else t
    let t := (imports.getD []).foldl importTable t  -- no iteration if `imports is None`
    let t := if tableType.isSystem then t else symbols.foldl (fun t s => (t.addText s).1) t
    .ok t

/-- `symbols.py:268-297 get` for a text key: the `default` argument is not used (line 294). -/
def getText (t : SymbolTable) (key : Text) (_default : Option SymbolToken := none) : Option SymbolToken :=
  PyDict.get t.mapping key

/-- `symbols.py:268-297 get` for an int key. -/
def getSid (t : SymbolTable) (key : Int) (default : Option SymbolToken := none) : Option SymbolToken :=
  if key = 0 then some SYMBOL_ZERO_TOKEN
  else
    let index := key - 1
    if index < 0 || key > t.symbols.length then default
    else t.symbols[index.toNat]?

/-- A `get`/`[]` key. -/
inductive Key where
  | text (t : Text)
  | sid (i : Int)
  deriving DecidableEq, Repr

/-- `symbols.py:268-297 get`. -/
def get (t : SymbolTable) : Key → Option SymbolToken → Option SymbolToken
  | .text k, d => t.getText k d
  | .sid i, d => t.getSid i d

/-- `symbols.py:299-317 __getitem__`. -/
def getItem (t : SymbolTable) (key : Key) : Except PyErr SymbolToken :=
  match t.get key none with
  | none => .error .keyError
  | some tok => .ok tok

/-- `symbols.py:246-266 intern`: the new table state and the token. -/
def intern (t : SymbolTable) (text : Text) : Except PyErr (SymbolTable × SymbolToken) :=
  if t.tableType.isShared then .error .typeError
  else match t.getText text with
    | some token => .ok (t, token)
    | none => .ok (t.addText (some text))

/-- `symbols.py:331-367 __eq__`.  (`record` tokens compare as tuples.) -/
def eq (t other : SymbolTable) : Bool :=
  t.tableType = other.tableType && t.name = other.name && t.version = other.version
    && t.isSubstitute = other.isSubstitute && t.symbols = other.symbols

end SymbolTable

/-- `symbols.py:372-377 SYSTEM_SYMBOL_TABLE` (constructed by `SymbolTable.new`; see `systemSymbolTable_eq`). -/
def SYSTEM_SYMBOL_TABLE : SymbolTable :=
  { tableType := .system, name := some TEXT_ION, version := some 1, isSubstitute := false, maxId := 9,
    symbols := SYSTEM_SYMBOL_TOKENS,
    mapping := SYSTEM_SYMBOL_TOKENS.map fun t => (t.text.getD [], t) }

/-- `symbols.py:380-394 local_symbol_table`. -/
def localSymbolTable (imports : Option (List SymbolTable) := none) (symbols : List (Option Text) := []) :
    Except PyErr SymbolTable :=
  SymbolTable.new .local symbols (imports := imports)

/-- `symbols.py:397-415 shared_symbol_table`. -/
def sharedSymbolTable (name : Text) (version : Int) (symbols : List (Option Text))
    (imports : Option (List SymbolTable) := none) : Except PyErr SymbolTable :=
  SymbolTable.new .shared symbols (some name) (some version) imports

/-- `symbols.py:418-443 placeholder_symbol_table`. -/
def placeholderSymbolTable (name : Text) (version maxId : Int) : Except PyErr SymbolTable :=
  if version ≤ 0 then .error .valueError
  else if maxId < 0 then .error .valueError
  else SymbolTable.new .shared (List.replicate maxId.toNat none) (some name) (some version) none true

/-- `symbols.py:446-484 substitute_symbol_table`. -/
def substituteSymbolTable (table : SymbolTable) (version maxId : Int) : Except PyErr SymbolTable :=
  if !table.tableType.isShared then .error .valueError
  else if version ≤ 0 then .error .valueError
  else if maxId < 0 then .error .valueError
  else
    let symbols :=
      if maxId ≤ table.maxId then (table.symbols.take maxId.toNat).map (·.text)
      else table.symbols.map (·.text) ++ List.replicate (maxId - table.maxId).toNat none
    SymbolTable.new .shared symbols table.name (some version) none true

/-- `symbols.py:487-497 SymbolTableCatalog`: name ↦ version ↦ table. -/
abbrev Catalog := PyDict (Option Text) (PyDict (Option Int) SymbolTable)

namespace Catalog

/-- `symbols.py:499-516 register`. -/
def register (c : Catalog) (table : SymbolTable) : Except PyErr Catalog :=
  if table.tableType.isSystem then .error .valueError
  else if !table.tableType.isShared then .error .valueError
  else if table.isSubstitute then .error .valueError
  else
    let versions := (PyDict.get c table.name).getD []
    .ok (PyDict.set c table.name (PyDict.set versions table.version table))

/-- `keys.sort(); keys[-1]` of `symbols.py:552-554` on the version numbers. -/
def maxVersion : List (Option Int) → Option (Option Int)
  | [] => none
  | k :: ks => some (ks.foldl (fun m k => if (m.getD 0) < (k.getD 0) then k else m) k)

/-- `symbols.py:518-564 resolve`.  `version` is `none` when the caller passes `None` (not an int: `TypeError`). -/
def resolve (c : Catalog) (name : Text) (version : Option Int) (maxId : Option Int) : Except PyErr SymbolTable :=
  match version with
  | none => .error .typeError
  | some version =>
    if version ≤ 0 then .error .valueError
    else if maxId.any (· < 0) then .error .valueError
    else match PyDict.get c (some name) with
      | none =>
        match maxId with
        | none => .error .cannotSubstitute
        | some m => placeholderSymbolTable name version m
      | some versions =>
        let table? := match PyDict.get versions (some version) with
          | some t => some t
          | none => match maxVersion (PyDict.keys versions) with
            | none => none
            | some k => PyDict.get versions k
        match table? with
        | none => .error .indexError
        | some table =>
          if table.version = some version && maxId.all (fun m => (table.maxId : Int) = m) then
            .ok table
          else match maxId with
            | none => .error .cannotSubstitute
            | some m => substituteSymbolTable table version m

end Catalog
end Ion
