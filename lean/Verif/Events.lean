import Verif.Symbols
import Verif.Scalars
/-!
# Ion events

Models the event vocabulary of `amazon/ion/core.py:34-247` and `amazon/ion/writer.py:26-64`.

Simplifications: the Python values an event can carry are those of `PyVal` (subclasses such as `IonPyInt` behave as their
base class in the modelled code); the `value` of a version marker event, a constant that is never read by the modelled
code, is left out.
-/
namespace Ion

/-- `core.py:33-66 IonType`, in the order of the enumeration. -/
inductive IonType where
  | null | bool | int | float | decimal | timestamp | symbol | string | clob | blob | list | sexp | struct
  deriving DecidableEq, Repr

/-- `core.py:64-66 is_container`. -/
def IonType.isContainer : IonType → Bool
  | .list | .sexp | .struct => true
  | _ => false

/-- `core.py:70-104 IonEventType`. -/
inductive IonEventType where
  | incomplete | streamEnd | versionMarker | scalar | containerStart | containerEnd
  deriving DecidableEq, Repr

/-- `core.py:92-94 begins_value`. -/
def IonEventType.beginsValue : IonEventType → Bool
  | .scalar | .containerStart => true
  | _ => false

/-- `core.py:102-104 is_stream_signal`. -/
def IonEventType.isStreamSignal : IonEventType → Bool
  | .incomplete | .streamEnd => true
  | _ => false

/-- A Python value carried by an event.  `decimalSpecial d` is a non-finite `Decimal`; `d` tells whether `as_tuple()` has
digits (it has none for a NaN without payload).  A `float` is its bit pattern. -/
inductive PyVal where
  | bool (b : Bool)
  | int (i : Int)
  | float (bits : UInt64)
  | decimal (d : Dec)
  | decimalSpecial (hasDigits : Bool)
  | timestamp (t : Scalars.TimeVal)
  | sym (t : SymbolToken)
  | str (t : Text)
  | bytes (b : Bytes)
  deriving DecidableEq, Repr

/-- A field name or an annotation of an event (`core.py:118-125`): text or a token. -/
inductive SymArg where
  | text (t : Text)
  | tok (t : SymbolToken)
  deriving DecidableEq, Repr

/-- `core.py:107-249 IonEvent` and `IonThunkEvent` (270-285): reading `value` may raise, when a thunk does. -/
structure IonEvent where
  eventType : IonEventType
  ionType : Option IonType := none
  value : Except PyErr (Option PyVal) := .ok none
  fieldName : Option SymArg := none
  annotations : List SymArg := []
  depth : Option Int := none
  deriving DecidableEq

/-- `core.py:288 ION_STREAM_END_EVENT`. -/
def ION_STREAM_END_EVENT : IonEvent := { eventType := .streamEnd }
/-- `core.py:289 ION_STREAM_INCOMPLETE_EVENT`. -/
def ION_STREAM_INCOMPLETE_EVENT : IonEvent := { eventType := .incomplete }
/-- `core.py:290-292 ION_VERSION_MARKER_EVENT`. -/
def ION_VERSION_MARKER_EVENT : IonEvent := { eventType := .versionMarker, depth := some 0 }

/-- `writer.py:26-42 WriteEventType`. -/
inductive WriteEventType where
  | hasPending | needsInput | complete
  deriving DecidableEq, Repr

/-- Outcome of handing one event to a writer co-routine: the chunks it yields as `HAS_PENDING` before it next accepts an
event, then either the final event type (whose data is `b''`) and the new state, or an exception. -/
abbrev WriterStep (S : Type) := List Bytes × Except PyErr (WriteEventType × S)

/-! ## The writer trampoline -/

/-- State of the generator `writer.py:79-111 writer_trampoline` between two `send`s. -/
inductive TrampolineState (S : Type) where
  /-- primed, `trans.event is None` -/
  | fresh (s : S)
  /-- the last event was `NEEDS_INPUT` or `COMPLETE` -/
  | ready (s : S)
  /-- the last event was `HAS_PENDING`; the delegate will yield these chunks, then this outcome -/
  | pending (chunks : List Bytes) (out : Except PyErr (WriteEventType × S))
  /-- the generator has raised; sending to it raises `StopIteration` -/
  | dead

/-- A result of `send`: the type and data of the `DataEvent`. -/
abbrev DataEvent := WriteEventType × Bytes

/-- The delegate continues until its next yield. -/
def Trampoline.advance {S : Type} : List Bytes → Except PyErr (WriteEventType × S) →
    Except PyErr DataEvent × TrampolineState S
  | c :: cs, out => (.ok (.hasPending, c), .pending cs out)
  | [], .ok (t, s) => (.ok (t, []), .ready s)
  | [], .error e => (.error e, .dead)

/-- `writer.py:79-111 writer_trampoline`, one `send`.  The INCOMPLETE check is skipped for the very first event. -/
def Trampoline.send {S : Type} (step : S → IonEvent → WriterStep S) (st : TrampolineState S) (ev : Option IonEvent) :
    Except PyErr DataEvent × TrampolineState S :=
  match st, ev with
  | .dead, _ => (.error .stopIteration, .dead)
  | .fresh _, none => (.error .typeError, .dead)
  | .fresh s, some e => advance (step s e).1 (step s e).2
  | .ready _, none => (.error .typeError, .dead)
  | .ready s, some e =>
    if e.eventType = .incomplete then (.error .typeError, .dead)
    else advance (step s e).1 (step s e).2
  | .pending _ _, some _ => (.error .typeError, .dead)
  | .pending cs out, none => advance cs out

end Ion
namespace Ion

/-- The output of a writer for a sequence of events, driven as `writer.py:115-152` (`_drain`, `blocking_writer`) drive
it: the chunks in the order written, and the state or the exception that ends the run.  That this is what the trampoline
protocol delivers is proved in `Props/RawWriter` (C28). -/
def runEvents {S : Type} (step : S → IonEvent → WriterStep S) (s : S) : List IonEvent → List Bytes × Except PyErr S
  | [] => ([], .ok s)
  | e :: es =>
    match step s e with
    | (cs, .error err) => (cs, .error err)
    | (cs, .ok (_, s')) =>
      let r := runEvents step s' es
      (cs ++ r.1, r.2)

end Ion
