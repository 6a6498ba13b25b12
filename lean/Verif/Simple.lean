import Verif.Multimap
import Verif.ManagedReader
import Verif.ManagedWriter
/-!
# `dump` and `load`

Models `amazon/ion/simpleion.py:43-453` (binary format) and the value classes of `amazon/ion/simple_types.py`.

A Python object is modelled by what `dump` can see of it: whether it has Ion nature (an `ion_type` and `ion_annotations`),
otherwise its class, and its contents.  The contents of a `dict` or of an `IonPyDict` are the pairs of `six.iteritems`, in
order.

Simplifications: keys are text, tokens or `None`; an object whose contents do not fit its Ion type (such as a dictionary
that claims to be a list, only possible with Ion nature) raises an exception here; the options that the documentation calls
NOT IMPLEMENTED, which the code ignores, are left out.
-/
namespace Ion.Simple
open Ion

/-! ## Classes -/

/-- A Python class.  The first group are the classes of the tables `_FROM_TYPE` (`simpleion.py:162-186`), and `object`. -/
inductive Cls where
  | noneType | bool | int | float | text | decimal | datetime | timestamp | bytes | symbolToken | list | tuple | dict
  | object
  /-- any other class, with its `__bases__` -/
  | other (bases : List Cls)

/-- `simpleion.py:162-181 _FROM_TYPE`, `_FROM_TYPE_TUPLE_AS_SEXP`. -/
def fromType (tupleAsSexp : Bool) : Cls → Option IonType
  | .noneType => some .null
  | .bool => some .bool
  | .int => some .int
  | .float => some .float
  | .text => some .string
  | .decimal => some .decimal
  | .datetime => some .timestamp
  | .timestamp => some .timestamp
  | .bytes => some .blob
  | .symbolToken => some .symbol
  | .list => some .list
  | .tuple => if tupleAsSexp then some .sexp else some .list
  | .dict => some .struct
  | .object => none
  | .other _ => none

/-- `__bases__`.  Those of the classes in the table are never asked for. -/
def Cls.bases : Cls → List Cls
  | .object => []
  | .other bases => bases
  | _ => [.object]

mutual
/-- Number of paths to ancestors; the measure of the loop below. -/
def Cls.weight : Cls → Nat
  | .object => 1
  | .other bases => 1 + weights bases
  | _ => 2
/-- Sum of `Cls.weight`. -/
def weights : List Cls → Nat
  | [] => 0
  | c :: cs => c.weight + weights cs
end

theorem weights_append (a b : List Cls) : weights (a ++ b) = weights a + weights b := by
  induction a with
  | nil => simp [weights]
  | cons c a ih => simp only [List.cons_append, weights, ih]; omega

theorem weights_reverse (a : List Cls) : weights a.reverse = weights a := by
  induction a with
  | nil => rfl
  | cons c a ih => simp only [List.reverse_cons, weights_append, weights, ih]; omega

theorem weight_bases (c : Cls) : weights c.bases < c.weight := by
  cases c <;> simp [Cls.bases, Cls.weight, weights]

/-- The loop of `simpleion.py:189-201 _ion_type`; the end of the list `types` comes first here.  (The special case for
`SymbolToken`, 194-197, gives what the table gives.) -/
def searchType (tupleAsSexp : Bool) (types : List Cls) : Except PyErr IonType :=
  match types with
  | [] => .error .typeError
  | c :: rest => match fromType tupleAsSexp c with
    | some ty => .ok ty
    | none => searchType tupleAsSexp (c.bases.reverse ++ rest)
termination_by weights types
decreasing_by
  simp only [weights_append, weights_reverse, weights]
  have := weight_bases c
  omega

/-- `simpleion.py:189-201 _ion_type` of an instance of the class. -/
def ionType (tupleAsSexp : Bool) (c : Cls) : Except PyErr IonType := searchType tupleAsSexp [c]

/-! ## Objects -/

/-- Whether an object has Ion nature (`simple_types.py:37-133 _IonNature`): its `ion_type` (which is `None` unless it is
set) and `ion_annotations`; otherwise its class. -/
inductive Kind where
  | plain (c : Cls)
  | ion (ty : Option IonType) (annotations : List SymArg)

/-- A Python object. -/
inductive PyObj where
  /-- `None` -/
  | none
  /-- `simple_types.py:190-209 IonPyNull` -/
  | null (ty : Option IonType) (annotations : List SymArg)
  /-- an immutable value: of a class of the table, a subclass, or `IonPyInt`, `IonPyFloat`, ... -/
  | scalar (k : Kind) (v : PyVal)
  /-- a list, tuple or `IonPyList` -/
  | seq (k : Kind) (elems : List PyObj)
  /-- a dictionary or `IonPyDict` -/
  | dict (k : Kind) (items : List (Option SymArg × PyObj))
  /-- an object without `ion_type` of any other class -/
  | other (c : Cls)

/-- `simpleion.py:206-212`: the `ion_type` of an object.  `None` as `ion_type` leads to an `AttributeError` when
`is_container` is read from it. -/
def Kind.type (tupleAsSexp : Bool) : Kind → Except PyErr IonType
  | .plain c => ionType tupleAsSexp c
  | .ion (some ty) _ => .ok ty
  | .ion none _ => .error .attributeError

/-! ## `dump` -/

/-- `simple_types.py:126-130`: the field name of an event made by `to_event`. -/
def natureField (field : Option SymArg) (inStruct : Bool) : Option SymArg :=
  if inStruct then
    match field with
    | some (.tok k) => some (.tok k)
    | some (.text t) => some (.tok ⟨some t, none, none⟩)
    | none => some (.tok ⟨none, some 0, none⟩)
  else none

/-- `simple_types.py:107-133 to_event`, or the plain `IonEvent` of `simpleion.py:216,230`. -/
def objEvent (k : Kind) (eventType : IonEventType) (ty : Option IonType) (value : Option PyVal) (field : Option SymArg)
    (inStruct : Bool) (depth : Nat) : IonEvent :=
  match k with
  | .plain _ => { eventType := eventType, ionType := ty, value := .ok value, fieldName := field, depth := some depth }
  | .ion _ ann => { eventType := eventType, ionType := ty, value := .ok value, fieldName := natureField field inStruct, annotations := ann, depth := some depth }

/-- What a call sends to the writer, and the exception that ends it, if any. -/
abbrev Sent := List IonEvent × Option PyErr

/-- One call after another. -/
def Sent.andThen (a b : Sent) : Sent :=
  match a.2 with
  | some err => (a.1, some err)
  | none => (a.1 ++ b.1, b.2)

/-- `simpleion.py:43 _ION_CONTAINER_END_EVENT`. -/
def endEvent : IonEvent := { eventType := .containerEnd }

mutual
/-- `simpleion.py:204-231 _dump`: the events sent to the writer as long as the writer does not raise. -/
def dumpObj (tupleAsSexp : Bool) (field : Option SymArg) (inStruct : Bool) (depth : Nat) : PyObj → Sent
  | .none => ([objEvent (.plain .noneType) .scalar (some .null) none field inStruct depth], none)
  | .null ty ann => ([objEvent (.ion ty ann) .scalar ty none field inStruct depth], none)
  | .scalar k v => match k.type tupleAsSexp with
    | .error err => ([], some err)
    | .ok ty =>
      if ty.isContainer then ([objEvent k .containerStart (some ty) none field inStruct depth], some .typeError)
      else ([objEvent k .scalar (some ty) (some v) field inStruct depth], none)
  | .seq k elems => match k.type tupleAsSexp with
    | .error err => ([], some err)
    | .ok ty =>
      if ty = .struct then ([objEvent k .containerStart (some ty) none field inStruct depth], some .attributeError)
      else if ty.isContainer then
        Sent.andThen ([objEvent k .containerStart (some ty) none field inStruct depth], none)
          (Sent.andThen (dumpElems tupleAsSexp (depth + 1) elems) ([endEvent], none))
      else ([], some .typeError)
  | .dict k items => match k.type tupleAsSexp with
    | .error err => ([], some err)
    | .ok ty =>
      if ty = .struct then
        Sent.andThen ([objEvent k .containerStart (some ty) none field inStruct depth], none)
          (Sent.andThen (dumpItems tupleAsSexp (depth + 1) items) ([endEvent], none))
      else ([], some .typeError)
  | .other c => match ionType tupleAsSexp c with
    | .error err => ([], some err)
    | .ok _ => ([], some .typeError)

/-- `simpleion.py:222-223`. -/
def dumpElems (tupleAsSexp : Bool) (depth : Nat) : List PyObj → Sent
  | [] => ([], none)
  | o :: os => Sent.andThen (dumpObj tupleAsSexp none false depth o) (dumpElems tupleAsSexp depth os)

/-- `simpleion.py:219-220`. -/
def dumpItems (tupleAsSexp : Bool) (depth : Nat) : List (Option SymArg × PyObj) → Sent
  | [] => ([], none)
  | (key, o) :: items => Sent.andThen (dumpObj tupleAsSexp key true depth o) (dumpItems tupleAsSexp depth items)
end

/-- The elements of a token, which is a named tuple (`symbols.py:51-92`). -/
def tokenElems (k : SymbolToken) : List PyObj :=
  [ match k.text with | some t => .scalar (.plain .text) (.str t) | none => .none,
    match k.sid with | some n => .scalar (.plain .int) (.int n) | none => .none,
    match k.location with
    | some l => .seq (.plain (.other [.tuple])) [.scalar (.plain .text) (.str l.name), .scalar (.plain .int) (.int l.position)]
    | none => .none ]

/-- `simpleion.py:152-158`: the values at the top level.  Note that a symbol is an instance of `tuple`. -/
def topLevel (sequenceAsStream : Bool) (o : PyObj) : List PyObj :=
  if sequenceAsStream then
    match o with
    | .seq _ elems => elems
    | .scalar _ (.sym k) => tokenElems k
    | o => [o]
  else [o]

/-- `simpleion.py:147-159`: events for a writer, then `STREAM_END` if no exception was raised; what the writer writes, and
the exception, if any. -/
def feed {S : Type} (step : S → IonEvent → WriterStep S) (s : S) (sent : Sent) : List Bytes × Except PyErr Unit :=
  match runEvents step s sent.1 with
  | (cs, .error err) => (cs, .error err)
  | (cs, .ok s) => match sent.2 with
    | some err => (cs, .error err)
    | none => match runEvents step s [ION_STREAM_END_EVENT] with
      | (cs', .error err) => (cs ++ cs', .error err)
      | (cs', .ok _) => (cs ++ cs', .ok ())

/-- `simpleion.py:48-159 dump` with `binary=True`: the chunks written to `fp`, and the outcome. -/
def dump (imports : Option (List SymbolTable)) (sequenceAsStream tupleAsSexp : Bool) (o : PyObj) :
    List Bytes × Except PyErr Unit :=
  feed (ManagedWriter.step imports) ManagedWriter.init
    (Sent.andThen ([ION_VERSION_MARKER_EVENT], none) (dumpElems tupleAsSexp 0 (topLevel sequenceAsStream o)))

/-- `simpleion.py:234-295 dumps` with `binary=True`. -/
def dumps (imports : Option (List SymbolTable)) (sequenceAsStream tupleAsSexp : Bool) (o : PyObj) : Except PyErr Bytes :=
  match dump imports sequenceAsStream tupleAsSexp o with
  | (_, .error err) => .error err
  | (cs, .ok ()) => .ok cs.flatten

/-! ## `load` -/

/-- Which reader `load` chooses. -/
inductive Format where
  | binary | text
  deriving DecidableEq, Repr

/-- `simpleion.py:44 _IVM`. -/
def IVM : Bytes := [0xE0, 0x01, 0x00, 0xEA]

/-- `simpleion.py:355-363`, for a file with the given contents; a text stream is always read as text. -/
def formatOf (isTextStream : Bool) (contents : Bytes) : Format :=
  if isTextStream then .text else if contents.take 4 = IVM then .binary else .text

/-- State of `blocking_reader` between two `send`s. -/
inductive Source (R : Type) where
  /-- the reader, and the chunks that are still to be read from the file -/
  | active (r : R) (cs : List Bytes)
  | ended
  | dead

section
variable {R : Type} (step : R → RawReader.Cmd → Option (Except PyErr ManagedReader.Event × R))

/-- The event `ION_STREAM_END_EVENT` as an event of a reader. -/
def streamEnd : ManagedReader.Event := ⟨.streamEnd, none, .ok none, .ok none, .ok [], none⟩

/-- `reader.py:388-398`: the inner loop of `blocking_reader`, for any reader co-routine (see also `Blocking.lean`). -/
def awaitEvent (r : Except PyErr ManagedReader.Event) (st : R) (cs : List Bytes) :
    Option (Except PyErr ManagedReader.Event × Source R) :=
  match r with
  | .error err => some (.error err, .dead)
  | .ok e =>
    if e.eventType.isStreamSignal then
      match cs with
      | [] =>
        if e.eventType = .incomplete then (step st .next) >>= fun p => awaitEvent p.1 p.2 []
        else some (.ok streamEnd, .ended)
      | d :: ds => (step st (.data d)) >>= fun p => awaitEvent p.1 p.2 ds
    else some (.ok e, .active st cs)
partial_fixpoint

/-- `reader.send(NEXT_EVENT)`. -/
def nextEvent : Source R → Option (Except PyErr ManagedReader.Event × Source R)
  | .active r cs => (step r .next) >>= fun p => awaitEvent step p.1 p.2 cs
  | .ended => some (.error .stopIteration, .dead)
  | .dead => some (.error .stopIteration, .dead)

/-- The container that `_load` fills: a list, or an `IonPyDict`, which is a `Multimap`. -/
inductive Out where
  | list (l : List PyObj)
  | dict (m : Multimap (Option Text) PyObj)

/-- `simpleion.py:393-397 add`; reading `field_name` may raise. -/
def Out.add (out : Out) (e : ManagedReader.Event) (o : PyObj) : Except PyErr Out :=
  match out with
  | .list l => .ok (.list (l ++ [o]))
  | .dict m => match e.fieldName with
    | .error err => .error err
    | .ok none => .error .attributeError
    | .ok (some k) => .ok (.dict (Multimap.addItem m k.text o))

/-- The finished container as an object: `IonPyList`, `IonPyDict`. -/
def Out.obj (out : Out) (ty : IonType) (ann : List SymbolToken) : PyObj :=
  match out with
  | .list l => .seq (.ion (some ty) (ann.map .tok)) l
  | .dict m => .dict (.ion (some ty) (ann.map .tok)) (m.items.map fun p => (p.1.map .text, p.2))

/-- `simple_types.py:178-187 IonPyTimestamp._to_constructor_args`, and the constructor. -/
def rebuildTime : Scalars.TimeVal → Except PyErr Timestamp
  | .ts t => Timestamp.new { year := t.dt.year, month := t.dt.month, day := t.dt.day, hour := t.dt.hour, minute := t.dt.minute, second := t.dt.second, micro := none, tz := t.dt.tz, precision := t.precision, frac := some t.frac }
  | .dt d => Timestamp.new { year := d.year, month := d.month, day := d.day, hour := d.hour, minute := d.minute, second := d.second, micro := some d.micro, tz := d.tz, precision := some .second }

/-- The constructor of `_FROM_ION_TYPE[ion_type]` (`simpleion.py:374-388`) on the value of an event: `int(True)` is 1; a
value that the constructor refuses, which no reader gives, raises. -/
def construct : IonType → PyVal → Except PyErr PyVal
  | .bool, .bool b => .ok (.int (if b then 1 else 0))
  | .bool, .int i => .ok (.int i)
  | .int, .int i => .ok (.int i)
  | .int, .bool b => .ok (.int (if b then 1 else 0))
  | .float, .float b => .ok (.float b)
  | .decimal, .decimal d => .ok (.decimal d)
  | .timestamp, .timestamp t => match rebuildTime t with
    | .error err => .error err
    | .ok t => .ok (.timestamp (.ts t))
  | .symbol, .sym k => match SymbolToken.new k.text k.sid k.location with
    | .error err => .error err
    | .ok k => .ok (.sym k)
  | .string, .str t => .ok (.str t)
  | .clob, .bytes b => .ok (.bytes b)
  | .blob, .bytes b => .ok (.bytes b)
  | _, _ => .error .typeError

/-- `simpleion.py:406-410` with `simple_types.py:72-87 from_event`: the object of a scalar event. -/
def scalarObj (e : ManagedReader.Event) : Except PyErr PyObj :=
  match e.value with
  | .error err => .error err
  | .ok v => match e.ionType with
    | none => .error .attributeError
    | some ty => match v with
      | none => match e.annotations with
        | .error err => .error err
        | .ok ann => .ok (.null (some ty) (ann.map .tok))
      | some v =>
        if ty = .null ∨ ty.isContainer then
          match e.annotations with
          | .error err => .error err
          | .ok ann => .ok (.null (some ty) (ann.map .tok))
        else match construct ty v with
          | .error err => .error err
          | .ok v => match e.annotations with
            | .error err => .error err
            | .ok ann => .ok (.scalar (.ion (some ty) (ann.map .tok)) v)

/-- `simpleion.py:403`: the empty container of a container event, with its type and annotations. -/
def newContainer (e : ManagedReader.Event) : Except PyErr (Out × IonType × List SymbolToken) :=
  match e.ionType, e.annotations with
  | some ty, .ok ann => .ok (if ty = .struct then .dict [] else .list [], ty, ann)
  | none, _ => .error .typeError
  | _, .error err => .error err

/-- `simpleion.py:391-412 _load`, from the request for the next event on. -/
def loadLoop (endType : IonEventType) (out : Out) (src : Source R) : Option (Except PyErr (Out × Source R)) :=
  (nextEvent step src) >>= fun p =>
    match p.1 with
    | .error err => some (.error err)
    | .ok e =>
      if e.eventType = endType then some (.ok (out, p.2))
      else if e.eventType = .containerStart then
        match newContainer e with
        | .error err => some (.error err)
        | .ok c => (loadLoop .containerEnd c.1 p.2) >>= fun q =>
          match q with
          | .error err => some (.error err)
          | .ok q => match out.add e (q.1.obj c.2.1 c.2.2) with
            | .error err => some (.error err)
            | .ok out' => loadLoop endType out' q.2
      else if e.eventType = .scalar then
        match scalarObj e with
        | .error err => some (.error err)
        | .ok o => match out.add e o with
          | .error err => some (.error err)
          | .ok out' => loadLoop endType out' p.2
      else loadLoop endType out p.2
partial_fixpoint

/-- The top-level list. -/
def Out.values : Out → List PyObj
  | .list l => l
  | .dict m => m.items.map (·.2)

/-- `simpleion.py:364-371`: the values of a stream, with `single_value`. -/
def loadFrom (singleValue : Bool) (src : Source R) : Option (Except PyErr (List PyObj)) :=
  (loadLoop step .streamEnd (.list []) src) >>= fun r =>
    match r with
    | .error err => some (.error err)
    | .ok p =>
      if singleValue ∧ p.1.values.length ≠ 1 then some (.error .ionException) else some (.ok p.1.values)

end

/-- `simpleion.py:298-371 load` of binary data from a file whose `read` returns the given chunks: the values of the stream
(a single one if `single_value`).  `none` if it does not end. -/
def loadBinary (catalog : Catalog) (singleValue : Bool) (cs : List Bytes) : Option (Except PyErr (List PyObj)) :=
  loadFrom (ManagedReader.send RawReader.send) singleValue (.active (ManagedReader.init catalog) cs)

/-- What `read(size)` returns, again and again, on a file with the given contents. -/
def pieces (size : Nat) (doc : Bytes) : List Bytes :=
  if h : doc = [] ∨ size = 0 then [] else doc.take size :: pieces size (doc.drop size)
termination_by doc.length
decreasing_by
  simp only [not_or] at h
  have : 0 < doc.length := List.length_pos_iff.2 h.1
  simp only [List.length_drop]
  omega

/-- `reader.py:372 _DEFAULT_BUFFER_SIZE`. -/
def BUFFER_SIZE : Nat := 8196

/-- `simpleion.py:415-453 loads` of `bytes` in the binary format. -/
def loadsBinary (catalog : Catalog) (singleValue : Bool) (doc : Bytes) : Option (Except PyErr (List PyObj)) :=
  loadBinary catalog singleValue (pieces BUFFER_SIZE doc)

end Ion.Simple
