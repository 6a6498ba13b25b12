import Verif.RawWriter
/-!
# The binary writer with symbol tables

Models `amazon/ion/writer_binary.py:35-244`.  The inner writers are driven through their own trampolines in Python; they
are always ready when an event is sent to them, so that their step functions are called directly here (C28).
-/
namespace Ion.ManagedWriter
open Ion

/-- `writer_binary.py:35 _IVM`. -/
def IVM : Bytes := [0xE0, 0x01, 0x00, 0xEA]

/-- `writer_binary.py:64-65 _system_token`. -/
def systemToken (sid : Nat) : SymArg := .tok (SYSTEM_SYMBOL_TOKENS.getD (sid - 1) SYMBOL_ZERO_TOKEN)

/-- `writer_binary.py:70 _ION_EVENT_STRUCT_START`. -/
def structStart : IonEvent := { eventType := .containerStart, ionType := some .struct }
/-- `writer_binary.py:72 _ION_EVENT_CONTAINER_END`. -/
def containerEnd : IonEvent := { eventType := .containerEnd }
/-- `writer_binary.py:73-74 _ION_EVENT_RAW_LST_STRUCT_START`. -/
def lstStructStart : IonEvent :=
  { eventType := .containerStart, ionType := some .struct, annotations := [systemToken SID_ION_SYMBOL_TABLE] }
/-- `writer_binary.py:75-76 _ION_EVENT_RAW_IMPORTS_LIST_START`. -/
def importsListStart : IonEvent :=
  { eventType := .containerStart, ionType := some .list, fieldName := some (systemToken SID_IMPORTS) }
/-- `writer_binary.py:77-78 _ION_EVENT_RAW_SYMBOLS_LIST_START`. -/
def symbolsListStart : IonEvent :=
  { eventType := .containerStart, ionType := some .list, fieldName := some (systemToken SID_SYMBOLS) }

/-- Locals of `writer_binary.py:82-154 _symbol_table_coroutine`. -/
structure SymState where
  raw : RawWriter.State
  table : Option SymbolTable
  hasLocal : Bool

/-- `write`, i.e. `symbol_writer.send` (line 128): no output is pending before the stream is ended. -/
def write (s : RawWriter.State) (e : IonEvent) : Except PyErr RawWriter.State := do
  let (_, _, s) ← RawWriter.handle s e
  return s

/-- The events of one import (`writer_binary.py:94-101`). -/
def importEvents (t : SymbolTable) : List IonEvent :=
  [ structStart,
    { eventType := .scalar, ionType := some .string, value := .ok (t.name.map .str),
      fieldName := some (systemToken SID_NAME) },
    { eventType := .scalar, ionType := some .int, value := .ok (t.version.map .int),
      fieldName := some (systemToken SID_VERSION) },
    { eventType := .scalar, ionType := some .int, value := .ok (some (.int t.maxId)),
      fieldName := some (systemToken SID_MAX_ID) },
    containerEnd ]

/-- Several writes. -/
def writeAll (s : RawWriter.State) : List IonEvent → Except PyErr RawWriter.State
  | [] => .ok s
  | e :: es => do
    let s ← write s e
    writeAll s es

/-- The loop `writer_binary.py:88-101`. -/
def writeImports (s : RawWriter.State) : List SymbolTable → Except PyErr RawWriter.State
  | [] => .ok s
  | t :: ts =>
    if t.tableType ≠ .shared then .error .ionException
    else do
      let s ← writeAll s (importEvents t)
      writeImports s ts

/-- `writer_binary.py:84-103,133-135`: the event START_LST. -/
def startLst (imports : Option (List SymbolTable)) (s : SymState) : Except PyErr SymState := do
  let raw ← write s.raw lstStructStart
  let raw ← (match imports with
    | some (t :: ts) => do
      let raw ← write raw importsListStart
      let raw ← writeImports raw (t :: ts)
      write raw containerEnd
    | _ => .ok raw : Except PyErr RawWriter.State)
  let table ← SymbolTable.new .local [] (imports := imports)
  return { s with raw := raw, table := some table }

/-- `writer_binary.py:105-122 write_symbol`: key and text of a symbol; `get` refuses a key that is neither text nor int. -/
def symbolKey : SymArg → Except PyErr (SymbolTable.Key × Option Text)
  | .text t => .ok (.text t, some t)
  | .tok tok => match tok.text, tok.sid with
    | some t, _ => .ok (.text t, some t)
    | none, some sid => .ok (.sid sid, none)
    | none, none => .error .typeError

/-- `writer_binary.py:105-122,136-142`: the event SYMBOL; returns the token. -/
def internSymbol (s : SymState) (sym : SymArg) : Except PyErr (SymState × SymbolToken) := do
  match s.table with
  | none => .error .ionException
  | some table =>
    let raw ← (if s.hasLocal then .ok s.raw else write s.raw symbolsListStart : Except PyErr RawWriter.State)
    let (key, text) ← symbolKey sym
    match table.get key none with
    | some token => return ({ raw := raw, table := some table, hasLocal := true }, token)
    | none =>
      match text with
      | none => .error .assertionError
      | some text => do
        let (table, token) ← table.intern text
        let raw ← write raw { eventType := .scalar, ionType := some .string, value := .ok (token.text.map .str) }
        return ({ raw := raw, table := some table, hasLocal := true }, token)

/-- `writer_binary.py:143-151`: the event FINISH, with the chunks the drained co-routine yields (the empty one is the
data of the raw writer's `COMPLETE` event). -/
def finishSymbols (imports : Option (List SymbolTable)) (s : SymState) : Except PyErr (List Bytes) :=
  if s.hasLocal || !(imports.getD []).isEmpty then do
    let raw ← (if s.hasLocal then write s.raw containerEnd else .ok s.raw : Except PyErr RawWriter.State)
    let raw ← write raw containerEnd
    let (chunks, _, _) ← RawWriter.handle raw ION_STREAM_END_EVENT
    return chunks ++ [[]]
  else .ok []

/-- Locals of `writer_binary.py:158-215 _managed_binary_writer_coroutine`. -/
structure State where
  value : RawWriter.State
  sym : SymState
  hasWritten : Bool
  ivmNeeded : Bool

/-- `writer_binary.py:160-163,180-183`: a new writer. -/
def init : State := ⟨.mk .empty [], ⟨.mk .empty [], none, false⟩, false, true⟩

/-- A `field_name` that is true in Python: a token, or text that is not empty. -/
def truthyArg : SymArg → Bool
  | .text t => !t.isEmpty
  | .tok _ => true

/-- `[intern_symbol(annotation) for annotation in annotations]`. -/
def internAll (s : SymState) : List SymArg → Except PyErr (SymState × List SymArg)
  | [] => .ok (s, [])
  | a :: as => do
    let (s, tok) ← internSymbol s a
    let (s, toks) ← internAll s as
    return (s, .tok tok :: toks)

/-- The symbol of a SYMBOL event's value: a token or text; anything else fails the assertion of line 114. -/
def symArgOfValue : PyVal → Except PyErr SymArg
  | .sym t => .ok (.tok t)
  | .str t => .ok (.text t)
  | _ => .error .assertionError

/-- `writer_binary.py:171-172`: the field name, if there is one that is true. -/
def internField (s : SymState) : Option SymArg → Except PyErr (SymState × Option SymArg)
  | some f => if truthyArg f then do
        let (s, tok) ← internSymbol s f
        return (s, some (.tok tok))
      else .ok (s, some f)
  | none => .ok (s, none)

/-- `writer_binary.py:168-178 intern_symbols`. -/
def internSymbols (s : SymState) (e : IonEvent) : Except PyErr (SymState × IonEvent) := do
  let (s, fieldName) ← internField s e.fieldName
  let (s, annotations) ← internAll s e.annotations
  if e.ionType = some .symbol then do
    let v ← e.value
    match v with
    | none => return (s, { e with fieldName := fieldName, annotations := annotations })
    | some v => do
      let a ← symArgOfValue v
      let (s, tok) ← internSymbol s a
      return (s, { e with fieldName := fieldName, annotations := annotations, value := .ok (some (.sym tok)) })
  else return (s, { e with fieldName := fieldName, annotations := annotations })

/-- The remainder of `writer_binary.py:211-214` after the version marker has been yielded. -/
def writeValue (imports : Option (List SymbolTable)) (s : State) (e : IonEvent) : Except PyErr (WriteEventType × State) := do
  let sym ← (if s.hasWritten then .ok s.sym else startLst imports s.sym : Except PyErr SymState)
  let (sym, e) ← internSymbols sym e
  let (_, t, value) ← RawWriter.handle s.value e
  return (t, { value := value, sym := sym, hasWritten := true, ivmNeeded := if s.hasWritten then s.ivmNeeded else false })

/-- `writer_binary.py:184-215`: one event.  The chunks of the value writer are only non-empty at the end of the stream. -/
def step (imports : Option (List SymbolTable)) (s : State) (e : IonEvent) : WriterStep State :=
  match e.eventType with
  | .versionMarker =>
    if s.hasWritten then ([], .error .ionException)
    else (if s.ivmNeeded then [IVM] else [], .ok (.needsInput, { s with ivmNeeded := false }))
  | .streamEnd =>
    if s.hasWritten then
      match finishSymbols imports s.sym with
      | .error err => ([], .error err)
      | .ok symChunks =>
        match RawWriter.handle s.value ION_STREAM_END_EVENT with
        | .error err => (symChunks ++ [[]], .error err)
        | .ok (chunks, _, _) => (symChunks ++ [[]] ++ chunks ++ [[]], .ok (.complete, init))
    else ([], .ok (.complete, { s with ivmNeeded := true }))
  | _ => (if !s.hasWritten && s.ivmNeeded then [IVM] else [], writeValue imports s e)

end Ion.ManagedWriter
