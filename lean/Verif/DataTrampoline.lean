import Verif.Events
import Verif.TextWriter
/-!
# The writer trampoline for writers whose last event carries data

`writer.py:79-111 writer_trampoline` again, for a co-routine whose last `DataEvent` carries data, as that of the text writer
does (`writer_text.py:408-433`); in `Events.lean` the data of that event is `b''`, as it is for the binary writers.  `D` is
the type of the data.
-/
namespace Ion.DataTrampoline
open Ion

/-- Outcome of handing one event to a writer co-routine: the chunks it yields as `HAS_PENDING`, then the type and data of
the last `DataEvent` with the new state, or an exception. -/
abbrev DStep (D S : Type) := List D × Except PyErr ((WriteEventType × D) × S)

/-- State of the generator `writer.py:79-111 writer_trampoline` between two `send`s. -/
inductive DState (D S : Type) where
  /-- primed, `trans.event is None` -/
  | fresh (s : S)
  /-- the last event was `NEEDS_INPUT` or `COMPLETE` -/
  | ready (s : S)
  /-- the last event was `HAS_PENDING`; the delegate will yield these chunks, then this outcome -/
  | pending (chunks : List D) (out : Except PyErr ((WriteEventType × D) × S))
  /-- the generator has raised; sending to it raises `StopIteration` -/
  | dead

variable {D S : Type}

/-- `writer.py:111`: the delegate continues until its next yield. -/
def advance : List D → Except PyErr ((WriteEventType × D) × S) → Except PyErr (WriteEventType × D) × DState D S
  | c :: cs, out => (.ok (.hasPending, c), .pending cs out)
  | [], .ok (d, s) => (.ok d, .ready s)
  | [], .error e => (.error e, .dead)

/-- `writer.py:79-111 writer_trampoline`, one `send`.  The INCOMPLETE check is skipped for the very first event. -/
def send (step : S → IonEvent → DStep D S) (st : DState D S) (ev : Option IonEvent) :
    Except PyErr (WriteEventType × D) × DState D S :=
  match st, ev with
  | .dead, _ => (.error .stopIteration, .dead)
  | .fresh _, none => (.error .typeError, .dead)
  | .fresh s, some e => advance (step s e).1 (step s e).2
  | .ready _, none => (.error .typeError, .dead)
  | .ready s, some e =>
    if e.eventType = .incomplete then (.error .typeError, .dead)
    else advance (step s e).1 (step s e).2
  | .pending _ _, some _ => (.error .typeError, .dead)
  | .pending cs out, none => advance cs out

/-- `writer.py:115-131 _drain`: the event is sent, then `None` while the answer is `HAS_PENDING`; the answers.  `fuel` bounds
the number of sends: when it runs out, the answers end with the error `modelFuel`. -/
def drain (step : S → IonEvent → DStep D S) : Nat → DState D S → Option IonEvent →
    List (Except PyErr (WriteEventType × D)) × DState D S
  | 0, st, _ => ([.error .modelFuel], st)
  | fuel + 1, st, ev =>
    match send step st ev with
    | (.ok (.hasPending, d), st') =>
      let r := drain step fuel st' none
      (.ok (.hasPending, d) :: r.1, r.2)
    | (r, st') => ([r], st')

/-- The text writer, `writer_text.py:437-453`, one `send`. -/
def sendText (F : FloatText) (indent : Option (List Nat)) :=
  send (D := List Nat) (S := TextWriter.State) (TextWriter.step F indent)

end Ion.DataTrampoline
