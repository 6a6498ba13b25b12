import Verif.BufferQueue
import Verif.Events
/-!
# The raw binary reader

Models `amazon/ion/reader_binary.py` (the handler co-routines and the dispatch table) and the trampoline of
`amazon/ion/reader.py:312-369`.

The Python reader is a set of generators that hand over to each other through `Transition`s.  At every moment the state
consists of: the buffer queue, the stack of `_container_handler`s (each one's `whence` is the next outer one), and the
handler that will be resumed.  Here each suspended handler is a constructor of `Task` or `Ctl` (defunctionalised), and one
hand-over between generators is one `micro` step; `run` performs steps until an event reaches the user.

Simplifications: `_HandlerContext.position` is never read by the code and is left out; data that spans segments is a
`bytearray` in Python and `bytes` otherwise, both are `Bytes` here.
-/
namespace Ion.RawReader
open Ion

/-- A byte queue. -/
abbrev Queue := BufferQueue UInt8

/-- The scalars with a body (`reader_binary.py:816-823`). -/
inductive ScalarKind where
  | posInt | negInt | float | decimal | timestamp | symbol | string | clob | blob
  deriving DecidableEq, Repr

/-- `reader_binary.py:57-73 _TID_VALUE_TYPE_TABLE` for scalars with a body. -/
def ScalarKind.ionType : ScalarKind → IonType
  | .posInt | .negInt => .int
  | .float => .float
  | .decimal => .decimal
  | .timestamp => .timestamp
  | .symbol => .symbol
  | .string => .string
  | .clob => .clob
  | .blob => .blob

/-- The handlers that `_bind_length_handlers` (lines 771-793) gives a length to. -/
inductive LenHandler where
  /-- `_nop_pad_handler` -/
  | nop
  /-- `_length_scalar_handler` -/
  | scalar (k : ScalarKind)
  /-- `_container_start_handler` -/
  | container (ty : IonType)
  /-- `_annotation_handler` -/
  | annotation
  deriving DecidableEq, Repr

/-- An entry of `_HANDLER_DISPATCH_TABLE` (`reader_binary.py:749-829`). -/
inductive Handler where
  | invalid
  | ivm
  | static (ty : IonType) (value : Option PyVal)
  | fixed (h : LenHandler) (length : Nat)
  | variable (h : LenHandler)
  | ordered
  deriving DecidableEq

/-- `reader_binary.py:57-73 _TID_VALUE_TYPE_TABLE`, type codes 0 to 13. -/
def valueType (tid : Nat) : IonType :=
  match tid with
  | 0 => .null | 1 => .bool | 2 => .int | 3 => .int | 4 => .float | 5 => .decimal | 6 => .timestamp | 7 => .symbol
  | 8 => .string | 9 => .clob | 10 => .blob | 11 => .list | 12 => .sexp | _ => .struct

/-- `reader_binary.py:101-116 _STATIC_SCALARS`. -/
def staticScalar (octet : Nat) : Option (IonType × PyVal) :=
  match octet with
  | 0x10 => some (.bool, .bool false)
  | 0x11 => some (.bool, .bool true)
  | 0x20 => some (.int, .int 0)
  | 0x40 => some (.float, .float 0)
  | 0x50 => some (.decimal, .decimal ⟨false, 0, 0⟩)
  | 0x70 => some (.symbol, .sym SYMBOL_ZERO_TOKEN)
  | 0x80 => some (.string, .str [])
  | 0x90 => some (.clob, .bytes [])
  | 0xA0 => some (.blob, .bytes [])
  | _ => none

/-- The handler of a type code, the length nibbles it is bound for (`reader_binary.py:816-826`). -/
def lenHandler (tid ln : Nat) : Option LenHandler :=
  match tid with
  | 0 => some .nop
  | 2 => if 1 ≤ ln then some (.scalar .posInt) else none
  | 3 => if 1 ≤ ln then some (.scalar .negInt) else none
  | 4 => if ln = 4 ∨ ln = 8 then some (.scalar .float) else none
  | 5 => if 1 ≤ ln then some (.scalar .decimal) else none
  | 6 => if 1 ≤ ln then some (.scalar .timestamp) else none
  | 7 => if 1 ≤ ln then some (.scalar .symbol) else none
  | 8 => if 1 ≤ ln then some (.scalar .string) else none
  | 9 => if 1 ≤ ln then some (.scalar .clob) else none
  | 10 => if 1 ≤ ln then some (.scalar .blob) else none
  | 11 => some (.container .list)
  | 12 => some (.container .sexp)
  | 13 => some (.container .struct)
  | 14 => if 3 ≤ ln then some .annotation else none
  | _ => none

/-- `reader_binary.py:750-829 _HANDLER_DISPATCH_TABLE`: the entry for a type octet.  The bindings are disjoint. -/
def dispatch (octet : UInt8) : Handler :=
  let tid := octet.toNat / 16
  let ln := octet.toNat % 16
  if octet.toNat = 0xE0 then .ivm
  else if ln = 15 then (if tid ≤ 13 then .static (valueType tid) none else .invalid)
  else match staticScalar octet.toNat with
    | some (ty, v) => .static ty (some v)
    | none => match lenHandler tid ln with
      | none => .invalid
      | some h =>
        if ln = 1 ∧ tid = 13 then .ordered
        else if ln < 14 then .fixed h ln
        else .variable h

/-- The part of `_HandlerContext` (`reader_binary.py:216-311`) that a value handler uses; its `whence` is the innermost
container handler, its queue the reader's. -/
structure Ctx where
  limit : Option Int
  depth : Nat
  fieldName : Option SymbolToken
  annotations : Option (List SymbolToken)
  deriving DecidableEq

/-- A `_container_handler` (`reader_binary.py:570-608`): its `ion_type`, the `limit` and `depth` of its context, and
`first`. -/
structure Frame where
  ionType : Option IonType
  limit : Option Int
  depth : Nat
  first : Bool
  deriving DecidableEq

/-- What receives the number a `_var_uint_field_handler` has read. -/
inductive VarUse where
  /-- the field name, in `_container_handler` -/
  | field
  /-- the length, for a handler bound with nibble 14 -/
  | length (h : LenHandler)
  /-- the length, in `_ordered_struct_start_handler` -/
  | ordered
  /-- the length of the annotations, in `_annotation_handler` -/
  | annLength
  deriving DecidableEq

/-- The handler a `_read_data_handler` returns to, at the point after its `yield`. -/
inductive Task where
  /-- `_start_type_handler`, line 489 -/
  | typeOctet (ctx : Ctx) (expectsIvm : Bool)
  /-- `_var_uint_field_handler`, line 416 -/
  | varByte (ctx : Ctx) (value : Nat) (use : VarUse)
  /-- `_ivm_handler`, line 432 -/
  | ivmTail
  /-- `_length_scalar_handler`, line 467 -/
  | scalarBody (ctx : Ctx) (k : ScalarKind) (length : Nat)
  /-- `_annotation_handler`, line 521 -/
  | annData (ctx : Ctx) (length : Nat)
  /-- the innermost `_container_handler`, line 586 -/
  | loop
  deriving DecidableEq

/-- The handler that runs next. -/
inductive Ctl where
  /-- the innermost `_container_handler`, line 586 -/
  | loop
  /-- `_var_uint_field_handler`, line 413 -/
  | varUInt (ctx : Ctx) (value : Nat) (use : VarUse)
  /-- `_read_data_handler`, line 371: `length` bytes are still missing; `atEnd` tells that `stream_event` is
  `STREAM_END`, not `INCOMPLETE` -/
  | read (length : Int) (skip : Bool) (atEnd : Bool) (task : Task)
  /-- a handler continues after its read -/
  | resume (task : Task)
  deriving DecidableEq

/-- A machine state. -/
structure Machine where
  queue : Queue
  stack : List Frame
  ctl : Ctl

/-- The result of one step: go on, deliver an event (the innermost container handler runs next), wait for data, raise. -/
inductive Outcome where
  | cont (m : Machine)
  | emit (e : IonEvent) (queue : Queue) (stack : List Frame)
  | block (atEnd : Bool) (m : Machine)
  | error (err : PyErr)

/-- `reader_binary.py:234-238 remaining`; `none` is infinity. -/
def remaining (depth : Nat) (limit : Option Int) (q : Queue) : Except PyErr (Option Int) :=
  if depth = 0 then .ok none
  else match limit with
    | some l => .ok (some (l - q.position))
    | none => .error .typeError

/-- `reader_binary.py:353 length > ctx.remaining`. -/
def overruns : Option Int → Int → Bool
  | some r, length => length > r
  | none, _ => false

/-- `reader_binary.py:353-368`: the start of `_read_data_handler`, called through `read_data_transition` (240-248). -/
def startRead (q : Queue) (stack : List Frame) (depth : Nat) (limit : Option Int) (length : Int) (skip atEnd : Bool)
    (task : Task) : Outcome :=
  match remaining depth limit q with
  | .error err => .error err
  | .ok rem =>
    if overruns rem length then .error .ionException
    else
      let queueLen := q.size
      let atEnd := atEnd && !(decide (queueLen > 0))
      let length' := length - queueLen
      if skip then
        match q.skip (if length' ≥ 0 then queueLen else queueLen + length') with
        | .error err => .error err
        | .ok (_, q) => .cont ⟨q, stack, .read length' skip atEnd task⟩
      else .cont ⟨q, stack, .read length' skip atEnd task⟩

/-- `reader_binary.py:371-392`: a `_read_data_handler` receives data. -/
def feed (q : Queue) (length : Int) (skip : Bool) (data : Bytes) : Queue × Int :=
  let length := length - data.length
  if skip then
    if length < 0 then
      -- `data[length:]` are the last `-length` bytes
      let q := q.extend (data.drop (data.length - length.natAbs))
      ({ q with position := q.position + (data.length + length) }, length)
    else ({ q with position := q.position + data.length }, length)
  else (q.extend data, length)

/-- `reader_binary.py:259-278 event_transition` for a scalar: an annotated value must end where its wrapper ends. -/
def scalarEvent (ctx : Ctx) (q : Queue) (ty : IonType) (value : Except PyErr (Option PyVal)) : Except PyErr IonEvent :=
  let annotations := ctx.annotations.getD []
  let e : IonEvent := { eventType := .scalar, ionType := some ty, value := value, fieldName := ctx.fieldName.map .tok, annotations := annotations.map .tok, depth := some ctx.depth }
  if annotations.isEmpty then .ok e
  else match ctx.limit with
    | none => .error .typeError
    | some l => if l - q.position ≠ 0 then .error .ionException else .ok e

/-- The scalar factories (`reader_binary.py:624-741`): what reading `value` of the event gives. -/
def scalarValue (k : ScalarKind) (data : Bytes) : Except PyErr (Option PyVal) :=
  match k with
  | .posInt => .ok (some (.int (Fields.parseInt 1 data)))
  | .negInt => .ok (some (.int (Fields.parseInt (-1) data)))
  | .float => (Scalars.parseFloat data).map fun v => some (.float v)
  | .decimal => (Scalars.parseDecimal data).map fun v => some (.decimal v)
  | .timestamp => (Scalars.parseTimestamp data).map fun v => some (.timestamp (.ts v))
  | .symbol => .ok (some (.sym ⟨none, some (Scalars.parseSymbol data).toNat, none⟩))
  | .string => (Utf8.decode data).map fun v => some (.str v)
  | .clob | .blob => .ok (some (.bytes data))

/-- `reader_binary.py:469-474`: the end of `_length_scalar_handler`.  `_float_factory` refuses a wrong length at once. -/
def finishScalar (q : Queue) (stack : List Frame) (ctx : Ctx) (k : ScalarKind) (data : Bytes) : Outcome :=
  if k = .float ∧ data.length ≠ 4 ∧ data.length ≠ 8 then .error .valueError
  else match scalarEvent ctx q k.ionType (scalarValue k data) with
    | .error err => .error err
    | .ok e => .emit e q stack

/-- `reader_binary.py:553-567 _container_start_handler`, and the constructor of `_container_handler`. -/
def containerStart (q : Queue) (stack : List Frame) (ctx : Ctx) (ty : IonType) (length : Nat) : Outcome :=
  let limit := q.position + length
  if (ctx.annotations.getD []).isEmpty = false ∧ ctx.limit ≠ some limit then .error .ionException
  else
    .emit { eventType := .containerStart, ionType := some ty, fieldName := ctx.fieldName.map .tok, annotations := (ctx.annotations.getD []).map .tok, depth := some ctx.depth }
      q (⟨some ty, some limit, ctx.depth + 1, true⟩ :: stack)

/-- `reader_binary.py:442`: the field name that a NOP pad must not have. -/
def namedPad : Option SymbolToken → Bool
  | some f => f ≠ SYMBOL_ZERO_TOKEN
  | none => false

/-- A handler with its length: `_nop_pad_handler` (438-450), `_length_scalar_handler` (459-467), `_container_start_handler`,
`_annotation_handler` (500-514).  The error of a NOP pad with a field name is raised by the formatting of the message
(`'%d' % token`): `TypeError`. -/
def lengthed (q : Queue) (stack : List Frame) (ctx : Ctx) (h : LenHandler) (length : Nat) : Outcome :=
  match h with
  | .nop =>
    if namedPad ctx.fieldName then .error .typeError
    else if length > 0 then startRead q stack ctx.depth ctx.limit length true false .loop
    else .cont ⟨q, stack, .loop⟩
  | .scalar k =>
    if length = 0 then finishScalar q stack ctx k []
    else startRead q stack ctx.depth ctx.limit length false false (.scalarBody ctx k length)
  | .container ty => containerStart q stack ctx ty length
  | .annotation =>
    if ctx.annotations.isSome then .error .ionException
    else .cont ⟨q, stack, .varUInt { ctx with limit := some (q.position + length) } 0 .annLength⟩

/-- The handler that the dispatch table gives (`reader_binary.py:495-497`). -/
def handle (q : Queue) (stack : List Frame) (ctx : Ctx) (h : Handler) : Outcome :=
  match h with
  | .invalid => .error .ionException
  | .ivm =>
    if ctx.depth ≠ 0 then .error .ionException
    else startRead q stack ctx.depth ctx.limit 3 false false .ivmTail
  | .static ty value => match scalarEvent ctx q ty (.ok value) with
    | .error err => .error err
    | .ok e => .emit e q stack
  | .fixed h length => lengthed q stack ctx h length
  | .variable h => .cont ⟨q, stack, .varUInt ctx 0 (.length h)⟩
  | .ordered => .cont ⟨q, stack, .varUInt ctx 0 .ordered⟩

/-- `_start_type_handler` (`reader_binary.py:477-488`) up to its read: with the context `ctx`, whose annotations and
field name the value will have. -/
def startType (q : Queue) (stack : List Frame) (ctx : Ctx) (expectsIvm atTop : Bool) : Outcome :=
  startRead q stack ctx.depth ctx.limit 1 false atTop (.typeOctet ctx expectsIvm)

/-- `_container_handler`, lines 604-608, with the field name. -/
def containerValue (q : Queue) (f : Frame) (stack : List Frame) (fieldName : Option SymbolToken) : Outcome :=
  startType q ({ f with first := false } :: stack) ⟨f.limit, f.depth, fieldName, none⟩ (f.first && f.depth = 0) (f.depth = 0)

/-- The number of a `_var_uint_field_handler` is handed over. -/
def useVar (q : Queue) (stack : List Frame) (ctx : Ctx) (value : Nat) (use : VarUse) : Outcome :=
  match use with
  | .field => match stack with
    | [] => .error .typeError
    | f :: stack => containerValue q f stack (some ⟨none, some value, none⟩)
  | .length h => lengthed q stack ctx h value
  | .ordered => if value < 2 then .error .ionException else containerStart q stack ctx .struct value
  | .annLength =>
    if value < 1 then .error .ionException
    else startRead q stack ctx.depth ctx.limit value false false (.annData ctx value)

/-- The handlers after their reads. -/
def resume (q : Queue) (stack : List Frame) (task : Task) : Outcome :=
  match task with
  | .typeOctet ctx expectsIvm =>
    match q.readByte with
    | .error err => .error err
    | .ok (octet, q) =>
      if expectsIvm && octet.toNat ≠ 0xE0 then .error .ionException
      else handle q stack ctx (dispatch octet)
  | .varByte ctx value use =>
    match q.readByte with
    | .error err => .error err
    | .ok (octet, q) =>
      let value := (value <<< 7) ||| (octet.toNat &&& 0x7F)
      if octet.toNat &&& 0x80 ≠ 0 then useVar q stack ctx value use
      else .cont ⟨q, stack, .varUInt ctx value use⟩
  | .ivmTail =>
    match q.read 3 with
    | .error err => .error err
    | .ok (tail, q) =>
      if tail ≠ [0x01, 0x00, 0xEA] then .error .ionException
      else .emit ION_VERSION_MARKER_EVENT q stack
  | .scalarBody ctx k length =>
    match q.read length with
    | .error err => .error err
    | .ok (data, q) => finishScalar q stack ctx k data
  | .annData ctx length =>
    match q.read length with
    | .error err => .error err
    | .ok (data, q) =>
      match Fields.parseSids data.length data with
      | .error err => .error err
      | .ok sids =>
        match ctx.limit with
        | none => .error .typeError
        | some l =>
          if l - q.position < 1 then .error .ionException
          else startType q stack { ctx with annotations := some (sids.map fun s => ⟨none, some s, none⟩) } false false
  | .loop => .cont ⟨q, stack, .loop⟩

/-- `_container_handler`, lines 586-602 (`reader_binary.py`). -/
def containerLoop (q : Queue) (stack : List Frame) : Outcome :=
  match stack with
  | [] => .error .attributeError
  | f :: stack =>
    if f.limit = some q.position then
      .emit { eventType := .containerEnd, ionType := f.ionType, depth := some ((f.depth : Int) - 1) } q stack
    else if f.ionType = some .struct then
      .cont ⟨q, f :: stack, .varUInt ⟨f.limit, f.depth, none, none⟩ 0 .field⟩
    else containerValue q f stack none

/-- One step of the machine. -/
def micro (m : Machine) : Outcome :=
  match m.ctl with
  | .loop => containerLoop m.queue m.stack
  | .varUInt ctx value use =>
    if m.queue.size = 0 then startRead m.queue m.stack ctx.depth ctx.limit 1 false false (.varByte ctx value use)
    else .cont ⟨m.queue, m.stack, .resume (.varByte ctx value use)⟩
  | .read length skip atEnd task =>
    if length ≤ 0 then .cont ⟨m.queue, m.stack, .resume task⟩
    else .block atEnd m
  | .resume task => resume m.queue m.stack task

/-! ## The trampoline -/

/-- State of `reader.py:312-369 reader_trampoline` between two `send`s. -/
inductive Status where
  /-- not started -/
  | fresh (q : Queue) (stack : List Frame)
  /-- the last event was no stream signal; `top` tells that `SKIP` is refused (lines 366-369) -/
  | ready (q : Queue) (stack : List Frame) (top : Bool)
  /-- the last event was a stream signal: a `_read_data_handler` waits -/
  | waiting (q : Queue) (stack : List Frame) (length : Int) (skip : Bool) (atEnd : Bool) (task : Task)
  /-- an exception was raised -/
  | dead

/-- `reader.py:283-294 ReadEventType`, with the data. -/
inductive Cmd where
  | next
  | skip
  | data (d : Bytes)
  deriving DecidableEq, Repr

/-- A bound on the number of steps without a new event: every round trip through the handlers reads a byte. -/
def measure (m : Machine) : Nat :=
  8 * (m.queue.segments.flatten.length - m.queue.offset) +
  match m.ctl with
  | .loop => 5
  | .varUInt .. => 4
  | .resume (.varByte ..) => 2
  | .resume .loop => 6
  | .resume (.annData ..) => 3
  | .resume _ => 1
  | .read _ _ _ (.varByte ..) => 3
  | .read _ _ _ .loop => 7
  | .read _ _ _ (.annData ..) => 4
  | .read .. => 2

/-- Steps until something reaches the user (with a bound on the number of steps). -/
def runFuel : Nat → Machine → Outcome
  | 0, _ => .error .modelFuel
  | n + 1, m => match micro m with
    | .cont m' => runFuel n m'
    | o => o

/-- Steps until something reaches the user; the bound is never reached (`run_total`). -/
def run (m : Machine) : Outcome := runFuel (measure m + 1) m

/-- What the trampoline delivers. -/
def deliver : Outcome → Except PyErr IonEvent × Status
  | .emit e q stack => (.ok e, .ready q stack (e.depth = some 0 && e.eventType ≠ .containerStart))
  | .block atEnd m => match m.ctl with
    | .read length skip _ task =>
      (.ok (if atEnd then ION_STREAM_END_EVENT else ION_STREAM_INCOMPLETE_EVENT),
        .waiting m.queue m.stack length skip atEnd task)
    | _ => (.error .modelFuel, .dead)
  | .error err => (.error err, .dead)
  | .cont _ => (.error .modelFuel, .dead)

/-- One `send` to the reader (`reader.py:346-369`).  `SKIP` resumes `_container_handler` at line 583 (`reader_binary.py`),
where it skips what remains of the container; afterwards it goes on at line 586. -/
def send (st : Status) (cmd : Cmd) : Except PyErr IonEvent × Status :=
  match st with
  | .dead => (.error .stopIteration, .dead)
  | .fresh q stack => match cmd with
    | .next => deliver (run ⟨q, stack, .loop⟩)
    | _ => (.error .typeError, .dead)
  | .ready q stack top => match cmd with
    | .data _ => (.error .typeError, .dead)
    | .next => deliver (run ⟨q, stack, .loop⟩)
    | .skip =>
      if top then (.error .typeError, .dead)
      else match stack with
        | [] => (.error .attributeError, .dead)
        | f :: _ => match remaining f.depth f.limit q with
          | .error err => (.error err, .dead)
          | .ok none => (.error .overflowError, .dead)
          | .ok (some rem) => match startRead q stack f.depth f.limit rem true false .loop with
            | .cont m => deliver (run m)
            | o => deliver o
  | .waiting q stack length skip atEnd task => match cmd with
    | .data d =>
      if d = [] then (.error .valueError, .dead)
      else
        let (q, length) := feed q length skip d
        deliver (run ⟨q, stack, .read length skip (atEnd && d = []) task⟩)
    | _ => (.error .typeError, .dead)

/-- `reader_binary.py:832-864 raw_reader`: a new reader. -/
def init : Status := .fresh BufferQueue.empty [⟨none, none, 0, true⟩]

/-- The inner loop of `reader.py:388-398 blocking_reader`: as long as the event is a stream signal, the next chunk is sent;
without further chunks the signal itself is the result.  Result: the event or exception, the reader, the chunks that were
not needed. -/
def absorb : Except PyErr IonEvent × Status → List Bytes → Except PyErr IonEvent × Status × List Bytes
  | (r, st), [] => (r, st, [])
  | (.error err, st), cs => (.error err, st, cs)
  | (.ok e, st), d :: ds =>
    if e.eventType.isStreamSignal then absorb (send st (.data d)) ds else (.ok e, st, d :: ds)

/-- One request (`NEXT` or `SKIP`) to a reader whose input arrives in the given chunks. -/
def pull (st : Status) (cs : List Bytes) (cmd : Cmd) : Except PyErr IonEvent × Status × List Bytes :=
  absorb (send st cmd) cs

/-- A sequence of requests; it ends at an exception. -/
def pulls (st : Status) (cs : List Bytes) : List Cmd → List (Except PyErr IonEvent)
  | [] => []
  | cmd :: cmds => match pull st cs cmd with
    | (.ok e, st', cs') => .ok e :: pulls st' cs' cmds
    | (.error err, _, _) => [.error err]

end Ion.RawReader
