import Verif.RawReader
/-!
# The blocking reader

Models `amazon/ion/reader.py:376-398 blocking_reader`, for any reader co-routine `send` with events `E`.  The file is
modelled by the chunks that `input.read(buffer_size)` returns before it returns `b''`: a file never returns an empty
chunk before its end.
-/
namespace Ion.Blocking
open Ion Ion.RawReader

/-- State of the generator between two `send`s. -/
inductive State (R : Type) where
  /-- the reader and the chunks that are still to be read -/
  | active (r : R) (cs : List Bytes)
  /-- the end of the stream has been delivered, line 396 -/
  | ended
  /-- an exception was raised, or the generator has returned -/
  | dead

section
variable {R E : Type} (step : R → Cmd → Except PyErr E × R) (etype : E → IonEventType) (endEvent : E)

/-- `reader.py:389-397` at the end of the file: as long as the reader answers `INCOMPLETE`, it is sent `NEXT`.  `none`: the
loop does not end. -/
def atEofLoop (r : Except PyErr E × R) : Option (Except PyErr E × State R) :=
  match r with
  | (.error err, _) => some (.error err, .dead)
  | (.ok e, st) =>
    if etype e = .streamEnd then some (.ok endEvent, .ended)
    else if etype e = .incomplete then atEofLoop (step st .next)
    else some (.ok e, .active st [])
partial_fixpoint

/-- `reader.py:389-397` at the end of the file.  A loop that does not end is shown as the error `modelFuel`. -/
def atEof (r : Except PyErr E × R) : Except PyErr E × State R :=
  (atEofLoop step etype endEvent r).getD (.error .modelFuel, .dead)

/-- `reader.py:388-398`: the inner loop. -/
def loop : Except PyErr E × R → List Bytes → Except PyErr E × State R
  | r, [] => atEof step etype endEvent r
  | (.error err, _), _ => (.error err, .dead)
  | (.ok e, st), d :: ds =>
    if (etype e).isStreamSignal then loop (step st (.data d)) ds else (.ok e, .active st (d :: ds))

/-- One `send` to the generator. -/
def send (st : State R) (cmd : Cmd) : Except PyErr E × State R :=
  match st with
  | .active r cs => loop step etype endEvent (step r cmd) cs
  | .ended => (.error .stopIteration, .dead)
  | .dead => (.error .stopIteration, .dead)

/-- A sequence of requests; it ends at an exception. -/
def run (st : State R) : List Cmd → List (Except PyErr E)
  | [] => []
  | cmd :: cmds => match send step etype endEvent st cmd with
    | (.ok e, st') => .ok e :: run st' cmds
    | (.error err, _) => [.error err]

end

/-- `blocking_reader(raw_reader(), input)`. -/
def rawRun (cs : List Bytes) (cmds : List Cmd) : List (Except PyErr IonEvent) :=
  run RawReader.send IonEvent.eventType ION_STREAM_END_EVENT (.active RawReader.init cs) cmds

end Ion.Blocking
