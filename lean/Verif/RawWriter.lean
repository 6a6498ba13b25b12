import Verif.Events
import Verif.BufferTree
/-!
# The raw binary writer

Models `amazon/ion/writer_binary_raw.py:30-395` and `serialize_scalar` of `amazon/ion/writer.py:53-75`.
-/
namespace Ion.RawWriter
open Ion Ion.Fields Ion.Scalars

/-- `writer_binary_raw.py:41-57 _TypeIds` with the null indicator: `_NULLS[ion_type]` of lines 78-101. -/
def nullByte : IonType → Nat
  | .null => 0x0F | .bool => 0x1F | .int => 0x2F | .float => 0x4F | .decimal => 0x5F | .timestamp => 0x6F
  | .symbol => 0x7F | .string => 0x8F | .clob => 0x9F | .blob => 0xAF | .list => 0xBF | .sexp => 0xCF | .struct => 0xDF

/-- Python truth value, `if ion_event.value` in `writer_binary_raw.py:105-109`.  Tokens (non-empty tuples), timestamps
and non-finite decimals are true. -/
def truthy : PyVal → Bool
  | .bool b => b
  | .int i => i ≠ 0
  | .float bits => bits.toNat % 2 ^ 63 ≠ 0
  | .decimal d => d.coeff ≠ 0
  | .decimalSpecial _ => true
  | .timestamp _ => true
  | .sym _ => true
  | .str t => t ≠ []
  | .bytes b => b ≠ []

/-- The body of a clob or blob.  `writer_binary_raw.py:229-234 _serialize_lob_value` does not validate the type: `len` of
a number or timestamp raises `TypeError`, and so does `bytearray.extend` of a token or of a non-empty `str`. -/
def serializeLobVal (tid : Nat) : PyVal → Except PyErr (List Nat)
  | .bytes b => .ok (serializeLob tid b)
  | .str [] => .ok (serializeLob tid [])
  | _ => .error .typeError

/-- `writer_binary_raw.py:280-291 _SERIALIZE_SCALAR_JUMP_TABLE` applied to a value that is not `None`, for a type that
is not a container. -/
def serializeValue (ty : IonType) (v : PyVal) : Except PyErr (List Nat) :=
  match ty with
  | .null => .error .typeError
  | .bool => .ok (serializeBool (truthy v))
  | .int => match v with
    | .int i => .ok (serializeInt i)
    | .bool b => .ok (serializeInt (if b then 1 else 0))
    | _ => .error .typeError
  | .float => match v with
    | .float bits => .ok (serializeFloat bits)
    | _ => .error .typeError
  | .decimal => match v with
    | .decimal d => serializeDecimal d
    | .decimalSpecial hasDigits => .error (if hasDigits then .typeError else .valueError)
    | _ => .error .typeError
  | .timestamp => match v with
    | .timestamp t => serializeTimestamp t
    | _ => .error .typeError
  | .symbol => match v with
    | .sym tok => match tok.sid with
      | some sid => .ok (serializeSymbol sid)
      | none => .error .typeError
    | _ => .error .typeError
  | .string => match v with
    | .str t => serializeString t
    | _ => .error .typeError
  | .clob => serializeLobVal 0x90 v
  | .blob => serializeLobVal 0xA0 v
  | .list | .sexp | .struct => .error .typeError

/-- `writer.py:69-75 serialize_scalar` with the tables of this module; without an `ion_type`, `null_table[None]` raises
`TypeError` and `None.is_container` raises `AttributeError`. -/
def serializeScalar (e : IonEvent) : Except PyErr Bytes := do
  let v ← e.value
  match v, e.ionType with
  | none, none => .error .typeError
  | none, some ty => .ok (toBytes [nullByte ty])
  | some _, none => .error .attributeError
  | some v, some ty => do
    let bs ← serializeValue ty v
    return toBytes bs

/-- `x.sid` followed by `_write_varuint`: text has no `sid` (`AttributeError`), and a `None` sid fails to compare. -/
def sidOf : SymArg → Except PyErr Nat
  | .text _ => .error .attributeError
  | .tok t => match t.sid with
    | some n => .ok n
    | none => .error .typeError

/-- The loop of `writer_binary_raw.py:304-305`. -/
def annotationSids : List SymArg → Except PyErr (List Nat)
  | [] => .ok []
  | a :: as => do
    let s ← sidOf a
    let ss ← annotationSids as
    return writeVarUInt s ++ ss

/-- `writer_binary_raw.py:299-311 _serialize_annotation_wrapper`: the header. -/
def annotationHeader (valueLength : Nat) (annotations : List SymArg) : Except PyErr Bytes := do
  let sids ← annotationSids annotations
  let lengthField := writeVarUInt sids.length
  let length := lengthField.length + sids.length + valueLength
  return toBytes (writeLength length 0xE0 ++ lengthField ++ sids)

/-- `writer_binary_raw.py:314-330 _serialize_container`: the header. -/
def containerHeader (ty : IonType) (length : Nat) : Bytes :=
  toBytes (match ty with
    | .struct => if length = 0 then [0xD0] else 0xDE :: writeVarUInt length
    | .sexp => writeLength length 0xC0
    | _ => writeLength length 0xB0)

/-- The locals of a `_raw_writer_coroutine` below top level: `container_event.ion_type` and `pending_annotations`. -/
structure Frame where
  ty : IonType
  pending : List SymArg
  deriving DecidableEq

/-- The chain of co-routines (innermost first, `whence` links) and their common buffer; `depth` is the number of
frames. -/
structure State where
  buffer : BufferTree
  frames : List Frame

/-- A new writer, `writer_binary_raw.py:388-395`. -/
def init : State := ⟨.empty, []⟩

/-- Field name and start of the annotation wrapper, `writer_binary_raw.py:350-357`. -/
def prologue (s : State) (e : IonEvent) : Except PyErr BufferTree := do
  let b ← (match s.frames with
    | ⟨.struct, _⟩ :: _ =>
      if e.eventType.beginsValue then
        match e.fieldName with
        | none => .error .attributeError
        | some f => do
          let sid ← sidOf f
          return s.buffer.addScalarValue (toBytes (writeVarUInt sid))
      else .ok s.buffer
    | _ => .ok s.buffer : Except PyErr BufferTree)
  return if e.eventType.beginsValue && !e.annotations.isEmpty then b.startContainer else b

/-- End of the annotation wrapper if there are annotations (`writer_binary_raw.py:361-362,378-379`). -/
def wrapUp (b : BufferTree) (annotations : List SymArg) : Except PyErr BufferTree :=
  if annotations.isEmpty then .ok b
  else do
    let h ← annotationHeader b.currentLength annotations
    b.endContainer h

/-- One event handled by `writer_binary_raw.py:337-384 _raw_writer_coroutine`. -/
def handle (s : State) (e : IonEvent) : Except PyErr (List Bytes × WriteEventType × State) := do
  let b ← prologue s e
  match e.eventType with
  | .scalar => do
    let bs ← serializeScalar e
    let b ← wrapUp (b.addScalarValue bs) e.annotations
    return ([], .needsInput, { s with buffer := b })
  | .streamEnd =>
    if s.frames.isEmpty then do
      let (chunks, b) ← b.drain
      return (chunks, .complete, { s with buffer := b })
    else .error .typeError
  | .containerStart =>
    match e.ionType with
    | none => .error .attributeError
    | some ty =>
      if ty.isContainer then .ok ([], .needsInput, ⟨b.startContainer, ⟨ty, e.annotations⟩ :: s.frames⟩)
      else .error .typeError
  | .containerEnd =>
    match s.frames with
    | [] => .error .typeError
    | f :: fs => do
      let b ← b.endContainer (containerHeader f.ty b.currentLength)
      let b ← wrapUp b f.pending
      return ([], .needsInput, ⟨b, fs⟩)
  | .versionMarker | .incomplete => .error .typeError

/-- The step of the co-routine for the trampoline: no chunk is yielded before an exception. -/
def step (s : State) (e : IonEvent) : WriterStep State :=
  match handle s e with
  | .error err => ([], .error err)
  | .ok (chunks, t, s) => (chunks, .ok (t, s))

end Ion.RawWriter
