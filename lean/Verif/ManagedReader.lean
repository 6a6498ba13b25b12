import Verif.RawReader
/-!
# The managed reader

Models `amazon/ion/reader_managed.py`: the layer that consumes version markers and local symbol tables and resolves
symbol IDs.  It works on top of any reader co-routine `raw`; the model takes the `send` function of that reader as a
parameter.

The handlers of a local symbol table are generators that hand over to each other; as in `RawReader`, each suspended
generator is a constructor (`Place`).  The two lists that the handlers share and mutate (`symbols`, `imports`) are
components of the state `Handler`.

`send` is defined as a least fixed point because its loop has no bound of its own: the result `none` means that the loop
does not end.
-/
namespace Ion.ManagedReader
open Ion Ion.RawReader

/-- `reader_managed.py:33-59 _ManagedContext`. -/
structure Context where
  catalog : Catalog
  table : SymbolTable := SYSTEM_SYMBOL_TABLE

/-- `reader_managed.py:40-52 resolve`.  Text instead of a token has no attribute `text`; a token with neither text nor ID
cannot be looked up (`None - 1`). -/
def Context.resolve (ctx : Context) : SymArg → Except PyErr SymbolToken
  | .text _ => .error .attributeError
  | .tok k => match k.text with
    | some _ => .ok k
    | none => match k.sid with
      | none => .error .typeError
      | some n => match ctx.table.getSid n none with
        | none => .error .ionException
        | some k' => .ok k'

/-- The `value` of a symbol event as an argument of `resolve`: a token; any other value has no attribute `text`. -/
def Context.resolveValue (ctx : Context) : PyVal → Except PyErr SymbolToken
  | .sym k => ctx.resolve (.tok k)
  | _ => .error .attributeError

/-- `reader_managed.py:54-59 has_symbol_table_annotation`. -/
def Context.hasTableAnnotation (ctx : Context) : List SymArg → Except PyErr Bool
  | [] => .ok false
  | a :: _ => match ctx.resolve a with
    | .error err => .error err
    | .ok k => .ok (k.text = some TEXT_ION_SYMBOL_TABLE)

/-- `reader_managed.py:62-95 _IonManagedThunkEvent`: reading `value`, `field_name` or `annotations` runs a thunk, which may
raise. -/
structure Event where
  eventType : IonEventType
  ionType : Option IonType
  value : Except PyErr (Option PyVal)
  fieldName : Except PyErr (Option SymbolToken)
  annotations : Except PyErr (List SymbolToken)
  depth : Option Int
  deriving DecidableEq

/-- `reader_managed.py:111-115 value_thunk`. -/
def valueThunk (ctx : Context) (e : IonEvent) : Except PyErr (Option PyVal) :=
  match e.value with
  | .error err => .error err
  | .ok none => .ok none
  | .ok (some v) =>
    if e.ionType = some .symbol then
      match ctx.resolveValue v with
      | .error err => .error err
      | .ok k => .ok (some (.sym k))
    else .ok (some v)

/-- `reader_managed.py:102-106 field_name_thunk`. -/
def fieldThunk (ctx : Context) : Option SymArg → Except PyErr (Option SymbolToken)
  | none => .ok none
  | some f => match ctx.resolve f with
    | .error err => .error err
    | .ok k => .ok (some k)

/-- `reader_managed.py:108-109 annotations_thunk`. -/
def annotationsThunk (ctx : Context) : List SymArg → Except PyErr (List SymbolToken)
  | [] => .ok []
  | a :: as => match ctx.resolve a with
    | .error err => .error err
    | .ok k => match annotationsThunk ctx as with
      | .error err => .error err
      | .ok ks => .ok (k :: ks)

/-- `reader_managed.py:98-124 _managed_thunk_event`. -/
def thunkEvent (ctx : Context) (e : IonEvent) : Event :=
  { eventType := e.eventType, ionType := e.ionType, value := valueThunk ctx e, fieldName := fieldThunk ctx e.fieldName, annotations := annotationsThunk ctx e.annotations, depth := e.depth }

/-! ## Local symbol tables -/

/-- `reader_managed.py:148-157 _ImportDesc`. -/
structure ImportDesc where
  name : Option Text := none
  version : Option Int := some 1
  maxId : Option Int := none

/-- Which handler receives the next event. -/
inductive Place where
  /-- `_local_symbol_table_handler` -/
  | table
  /-- `_symbols_handler` -/
  | symbols
  /-- `_imports_handler` -/
  | imports
  /-- `_import_desc_handler` -/
  | desc (d : ImportDesc)

/-- State of the processing of one local symbol table. -/
structure Handler where
  place : Place := .table
  /-- a container is being skipped: the next event, its end, is ignored -/
  skipping : Bool := false
  symbols : List (Option Text) := []
  imports : Option (List SymbolTable) := none

/-- What a handler asks for: another event, or (at the end of the table) nothing, with the new context. -/
inductive Reply where
  | ask (cmd : Cmd) (h : Handler)
  | done (ctx : Context)

/-- The value of a `STRING` event (`None` for `null.string`).  A reader gives no other values. -/
def stringValue : Except PyErr (Option PyVal) → Except PyErr (Option Text)
  | .error err => .error err
  | .ok none => .ok none
  | .ok (some (.str t)) => .ok (some t)
  | .ok (some _) => .error .typeError

/-- The value of an `INT` event.  A reader gives no other values. -/
def intValue : Except PyErr (Option PyVal) → Except PyErr (Option Int)
  | .error err => .error err
  | .ok none => .ok none
  | .ok (some (.int i)) => .ok (some i)
  | .ok (some _) => .error .typeError

/-- `reader_managed.py:128-145 _symbols_handler`, one event. -/
def onSymbols (h : Handler) (e : IonEvent) : Except PyErr Reply :=
  if e.eventType = .containerEnd then .ok (.ask .next { h with place := .table })
  else if e.eventType = .containerStart then .ok (.ask .skip { h with skipping := true })
  else if e.ionType = some .string then
    match stringValue e.value with
    | .error err => .error err
    | .ok t => .ok (.ask .next { h with symbols := h.symbols ++ [t] })
  else .ok (.ask .next h)

/-- `reader_managed.py:169-174`: the descriptor is complete.  (The second half of the condition on line 170 is implied by
the first.) -/
def endDesc (ctx : Context) (h : Handler) (d : ImportDesc) : Except PyErr Reply :=
  match d.name with
  | none => .ok (.ask .next { h with place := .imports })
  | some name => match ctx.catalog.resolve name d.version d.maxId with
    | .error err => .error err
    | .ok t => .ok (.ask .next { h with place := .imports, imports := some (h.imports.getD [] ++ [t]) })

/-- `reader_managed.py:180-186`: a scalar field of a descriptor. -/
def setDesc (d : ImportDesc) (field : Option Text) (e : IonEvent) : Except PyErr ImportDesc :=
  if field = some TEXT_NAME ∧ e.ionType = some .string then
    match stringValue e.value with
    | .error err => .error err
    | .ok t => .ok { d with name := t }
  else if field = some TEXT_VERSION ∧ e.ionType = some .int then
    match intValue e.value with
    | .error err => .error err
    | .ok i => .ok { d with version := i }
  else if field = some TEXT_MAX_ID ∧ e.ionType = some .int then
    match intValue e.value with
    | .error err => .error err
    | .ok i => .ok { d with maxId := i }
  else .ok d

/-- `reader_managed.py:161-188 _import_desc_handler`, one event.  Without a field name, `resolve(None)` fails. -/
def onDesc (ctx : Context) (h : Handler) (d : ImportDesc) (e : IonEvent) : Except PyErr Reply :=
  if e.eventType = .containerEnd then endDesc ctx h d
  else if e.eventType = .containerStart then .ok (.ask .skip { h with skipping := true })
  else match e.fieldName with
    | none => .error .attributeError
    | some f => match ctx.resolve f with
      | .error err => .error err
      | .ok k => match setDesc d k.text e with
        | .error err => .error err
        | .ok d' => .ok (.ask .next { h with place := .desc d' })

/-- `reader_managed.py:192-209 _imports_handler`, one event. -/
def onImports (h : Handler) (e : IonEvent) : Except PyErr Reply :=
  if e.eventType = .containerEnd then .ok (.ask .next { h with place := .table })
  else if e.eventType = .containerStart then
    if e.ionType = some .struct then .ok (.ask .next { h with place := .desc {} })
    else .ok (.ask .skip { h with skipping := true })
  else .ok (.ask .next h)

/-- `reader_managed.py:243-251`: the field `imports` with a symbol as its value. -/
def inheritTable (ctx : Context) (h : Handler) (e : IonEvent) : Except PyErr Reply :=
  match e.value with
  | .error err => .error err
  | .ok none => .error .attributeError
  | .ok (some v) => match ctx.resolveValue v with
    | .error err => .error err
    | .ok k =>
      if k.text = some TEXT_ION_SYMBOL_TABLE then
        if ctx.table.tableType.isSystem then .ok (.ask .next { h with imports := none })
        else .ok (.ask .next { h with imports := some [ctx.table] })
      else .ok (.ask .next h)

/-- `reader_managed.py:213-257 _local_symbol_table_handler`, one event. -/
def onTable (ctx : Context) (h : Handler) (e : IonEvent) : Except PyErr Reply :=
  if e.eventType = .containerEnd then
    match SymbolTable.new .local h.symbols (imports := h.imports) with
    | .error err => .error err
    | .ok t => .ok (.done ⟨ctx.catalog, t⟩)
  else match fieldThunk ctx e.fieldName with
    | .error err => .error err
    | .ok k =>
      let field := k.bind (·.text)
      if e.eventType = .containerStart then
        if field = some TEXT_SYMBOLS ∧ e.ionType = some .list then .ok (.ask .next { h with place := .symbols })
        else if field = some TEXT_IMPORTS ∧ e.ionType = some .list then
          .ok (.ask .next { h with place := .imports, imports := some [] })
        else .ok (.ask .skip { h with skipping := true })
      else if e.ionType = some .symbol ∧ field = some TEXT_IMPORTS then inheritTable ctx h e
      else .ok (.ask .next h)

/-- One event for the active handler. -/
def handle (ctx : Context) (h : Handler) (e : IonEvent) : Except PyErr Reply :=
  if h.skipping then .ok (.ask .next { h with skipping := false })
  else match h.place with
    | .table => onTable ctx h e
    | .symbols => onSymbols h e
    | .imports => onImports h e
    | .desc d => onDesc ctx h d e

/-! ## The reader -/

/-- What the reader does with an event of the underlying reader. -/
inductive Action where
  /-- it asks the underlying reader for another event -/
  | ask (cmd : Cmd) (ctx : Context) (h : Option Handler)
  /-- it hands the event to the user -/
  | give (ctx : Context) (h : Option Handler)

/-- `reader_managed.py:310-317`: whether a symbol at the top level is the text `$ion_1_0`. -/
def isTextMarker (ctx : Context) (e : IonEvent) : Except PyErr Bool :=
  if e.ionType = some .symbol ∧ e.annotations = [] then
    match e.value with
    | .error err => .error err
    | .ok none => .ok false
    | .ok (some v) => match ctx.resolveValue v with
      | .error err => .error err
      | .ok k => .ok (k.text = some TEXT_ION_1_0)
  else .ok false

/-- `reader_managed.py:319-321`: whether the event starts a local symbol table. -/
def startsTable (ctx : Context) (e : IonEvent) : Except PyErr Bool :=
  if e.eventType = .containerStart ∧ e.ionType = some .struct then ctx.hasTableAnnotation e.annotations else .ok false

/-- `reader_managed.py:292-333`: an event that no handler takes. -/
def onUser (ctx : Context) (h : Option Handler) (e : IonEvent) : Except PyErr Action :=
  if e.depth = some 0 then
    if e.eventType = .versionMarker then
      if e ≠ ION_VERSION_MARKER_EVENT then .error .ionException else .ok (.ask .next { catalog := ctx.catalog } h)
    else match isTextMarker ctx e with
      | .error err => .error err
      | .ok true => if h.isSome then .error .assertionError else .ok (.ask .next ctx h)
      | .ok false => match startsTable ctx e with
        | .error err => .error err
        | .ok true => if h.isSome then .error .assertionError else .ok (.ask .next ctx (some {}))
        | .ok false => .ok (.give ctx h)
  else .ok (.give ctx h)

/-- `reader_managed.py:278-335`: one round of the loop, after the underlying reader has answered. -/
def react (ctx : Context) (h : Option Handler) (e : IonEvent) : Except PyErr Action :=
  match h with
  | some hd =>
    if e.eventType.isStreamSignal then onUser ctx h e
    else match handle ctx hd e with
      | .error err => .error err
      | .ok (.ask cmd hd') => .ok (.ask cmd ctx (some hd'))
      | .ok (.done ctx') => .ok (.ask .next ctx' none)
  | none => onUser ctx h e

/-- State of the generator between two `send`s. -/
inductive Status (R : Type) where
  | live (raw : R) (ctx : Context) (h : Option Handler)
  | dead

/-- `reader_managed.py:261-335 managed_reader`: one `send`. -/
def send {R : Type} (raw : R → Cmd → Except PyErr IonEvent × R) (st : Status R) (cmd : Cmd) :
    Option (Except PyErr Event × Status R) :=
  match st with
  | .dead => some (.error .stopIteration, .dead)
  | .live r ctx h => match raw r cmd with
    | (.error err, _) => some (.error err, .dead)
    | (.ok e, r') => match react ctx h e with
      | .error err => some (.error err, .dead)
      | .ok (.give ctx' h') => some (.ok (thunkEvent ctx' e), .live r' ctx' h')
      | .ok (.ask cmd' ctx' h') => send raw (.live r' ctx' h') cmd'
partial_fixpoint

/-- `managed_reader(raw_reader(), catalog)`; without a catalog, an empty one is used. -/
def init (catalog : Catalog := []) : Status RawReader.Status := .live RawReader.init { catalog := catalog } none

/-- As `RawReader.absorb`: chunks are sent as long as the event is a stream signal. -/
def absorb {R : Type} (raw : R → Cmd → Except PyErr IonEvent × R) :
    Option (Except PyErr Event × Status R) → List Bytes → Option (Except PyErr Event × Status R × List Bytes)
  | none, _ => none
  | some (r, st), [] => some (r, st, [])
  | some (.error err, st), cs => some (.error err, st, cs)
  | some (.ok e, st), d :: ds =>
    if e.eventType.isStreamSignal then absorb raw (send raw st (.data d)) ds else some (.ok e, st, d :: ds)

/-- One request to a reader whose input arrives in the given chunks. -/
def pull {R : Type} (raw : R → Cmd → Except PyErr IonEvent × R) (st : Status R) (cs : List Bytes) (cmd : Cmd) :
    Option (Except PyErr Event × Status R × List Bytes) :=
  absorb raw (send raw st cmd) cs

/-- A sequence of requests; it ends at an exception.  `none` if a request is never answered. -/
def pulls {R : Type} (raw : R → Cmd → Except PyErr IonEvent × R) (st : Status R) (cs : List Bytes) :
    List Cmd → Option (List (Except PyErr Event))
  | [] => some []
  | cmd :: cmds => match pull raw st cs cmd with
    | none => none
    | some (.error err, _, _) => some [.error err]
    | some (.ok e, st', cs') => (pulls raw st' cs' cmds).map (.ok e :: ·)

end Ion.ManagedReader
