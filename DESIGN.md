# Formal model of amzn/ion-python in Lean 4

## Trusted base
* Lean 4.33.0 kernel; axioms used by the theorems: `propext`, `Classical.choice`, `Quot.sound` (nothing else; no axiom of
  our own, no compiled evaluation).
* Faithfulness of the model: the code is read, never run. Every definition of the model cites file and lines in /repo.
* CPython / library behaviour that is assumed (not proved): unbounded ints; `bytes`/`bytearray`/`deque`/`list`/`dict`/
  `OrderedDict` semantics; `struct.pack/unpack('>d','>Q',..)` big-endian; `decimal` context arithmetic as modelled in
  `Verif/Decimal.lean`; `datetime` proleptic Gregorian arithmetic as modelled in `Verif/Timestamp.lean`; strict UTF-8 codec
  as modelled in `Verif/Utf8.lean`; PEP-342 generators (a suspended generator resumes exactly at its `yield`).
* Python 3 semantics (six.PY3 branches) are modelled; narrow Python 2 builds are not (except `util.py`, C40).

## Architecture of the model (lean/Verif)
Coroutines are defunctionalised: a generator becomes a state (program point + locals) and a step function. Exceptions are
values (`Except PyErr`). Loops without an evident bound are `partial_fixpoint` definitions (`none`: does not end).

| module | what it is |
|---|---|
| Basic | Python exceptions as values, bytes, text |
| Fields, FieldsLemmas | model: writer_binary_raw_fields.py, field parsers of reader_binary.py |
| PyDict, Multimap | model: ordered dictionaries, core.py `Multimap` |
| Symbols, SymbolsLemmas | model: symbols.py (tokens, tables, catalog) |
| BufferTree | model: writer_buffer.py |
| BufferQueue | model: reader.py `BufferQueue` |
| Util | model: util.py (unicode iteration, records), core.py memoising delegates |
| Decimal, Utf8, Timestamp, TimestampLemmas | library behaviour; model: core.py `Timestamp` |
| Scalars, ScalarsLemmas, TimestampCodec | model: scalar (de)serialisers of writer_binary_raw.py / reader_binary.py |
| Events | model: core.py events, writer.py trampoline |
| RawWriter, RawWriterLemmas | model: writer_binary_raw.py |
| IonSpec, TimestampSpec | **specification**: the Ion 1.0 binary encoding as a relation between octets and trees |
| ManagedWriter | model: writer_binary.py |
| RawReader, RawReaderLemmas, RawReaderSteps, RawReaderValues, IonExtent | model: reader_binary.py with the trampoline of reader.py; lemmas |
| FramingSpec | specification: which byte strings are framed like binary Ion (scalar bodies not looked at), and a list of defects |
| Props/Malformed | C42 |
| Blocking | model: reader.py `blocking_reader` |
| ManagedReader | model: reader_managed.py |
| ManagedSpec | **specification**: symbol tables of a document, what the user sees |
| Simple | model: simpleion.py `dump`/`load`, simple_types.py (binary format) |
| SimpleSpec | **specification**: the Ion value of a Python object; equality in the data model |
| Equivalence | model: equivalence.py `ion_equals` |
| EquivalenceSpec | **specification**: which values are equal |
| TextWriter | model: writer_text.py (all of it) |
| TextReader | model: reader_text.py (all handlers), the text branch of reader.py |
| Base64Spec | **specification**: RFC 4648 base64; base64 of the text writer/reader agree with it |
| TextRun | the trampoline of the text reader with `blocking_reader`: what is read does not depend on how the text is cut into chunks |
| TextSpec | **specification**: the grammar of Ion text (which texts denote which values) and the events of a value |
| TextSteps, TextSymbols, TextScalars, TextTimestamps, TextLong, TextOperators, TextValues | proofs: the text reader step by step through whitespace, symbols, scalars, timestamps, long strings, operators, values, documents of the grammar |
| TextWriterScalars, TextWriting, TextAscii | proofs: what the text writer writes is in the grammar and ASCII; what a user may give to it (`Given`) |
| TextEval | evaluation of the text reader on given texts, for the negative theorems |
| Props/Text | C35-C39 |
| DataTrampoline | `writer_trampoline`, `_drain` and `blocking_writer` (writer.py:79-152) for writers whose last event carries data: the text writer |
| SimpleText | `dump`, `dumps`, `load`, `loads` with Ion text |
| TextDocSpec | specification: what the items of a text document mean (version markers, local symbol tables) |
| ManagedText | the managed reader over the events of a raw reader (`filterEvents`) |
| Props/TextGrammar | C38: a text that uses much of the grammar; the reader's deviations on given texts |
| TextPrefixSpec, TextBadSpec | specification: beginnings of texts (open containers, complete values), what may follow, and mistakes |
| TextPrefix, TextReject, TextBad, TextBadNumbers, TextBadWords, TextWrong | proofs: the reader on beginnings of texts, and on mistakes |
| Props/TextReject | C50: wrong texts are rejected; the grammar of C38 is unambiguous |
| TextCalls | evaluation of calls of the text reader, for examples and deviations |
| Props/TextNesting | C51: events of the text reader are well nested for arbitrary input |
| TextTotal, TextSafe, TextSafeRun | proofs: steps per character are bounded; invariants of handlers and of the container generator for arbitrary characters |
| Props/TextErrors | C52: the text reader always answers |
| TextGiven, TextWhole, TextLevels, TextPaths | proofs: what is given back to the queue was read last; STREAM_END is only said at the top level; two readers with the same text in different pieces are in the same state |
| TextPathsLoad | proofs: the same through the managed reader, `blocking_reader` and `_load` |
| LoadWhole, LoadEval | proofs: what `load` has read when it returns; evaluating `load` on given texts |
| Props/LoadWhole | C54: `load` returns whole streams only |
| ManagedNesting | specification of nesting and of what belongs to the user; proofs: the managed reader on any reader whose events are nested |
| Props/ManagedNesting | C55, C20: events of the managed reader are nested, and are all those of the user, for arbitrary input and histories |
| TextSkip | proofs: the run of the text reader under SKIP follows that under NEXT |
| TextSkipLoad | proofs: the managed reader that skips, on top of the text reader |
| Props/TextSkip | C56: skipping a container of a text is reading it |
| Props/Versions | C57: other versions of Ion are refused |
| Props/FailedDump | C60: a failed binary `dump` writes the version marker only; text is written as it is produced |
| Props/Appending | C61: documents written one after another are loaded as one stream |
| EventEquality, Props/EventEquality | `IonEvent.__eq__` and the inherited `!=`; C62 |
| TimestampShorthand, Props/TimestampShorthand | `timestamp()`; C63, also about `adjust_from_utc_fields` |
| EventValues, Props/EventValues | C64: the value of every event fits its type; invariants of handlers, contexts and actions |
| LoadTotal, LoadErrors, Props/LoadTotal | C65: `load` of binary data ends (a potential over the bytes that are left), and the list of its exceptions (an invariant of the queue and the readers) |
| TextLoadTotal, TextEventValues, TextLoadErrors, Props/TextLoadTotal | C66: `load` of text ends unless the text reader asks for ever (a potential over the characters that are left and the nesting of handlers), and the list of its exceptions |
| Props/LoadedValues | C68: the objects that `load` returns from any data mean Ion values |
| Props/CutFiles | C71: what `load` makes of a file that was cut off; lines of text |
| NativeValues, Props/NativeValues | C72: `_IonNature.from_value`, `_copy`, `_to_constructor_args` (`simple_types.py:56-105, 158-209`) |
| Props/Piping, Props/TextPiping | C73: the events of the managed reader, of binary data and of text, as arguments of the writers |
| Declared, Props/Declared | C69, C70: `Enum` and `record` of util.py, with what `record` uses of namedtuple and of binding of arguments |
| Props/SameOutput | C67: the events `dump` sends for an object, up to what the writers look at, are a function of its Ion values |
| Props/Transcoding | C59: what `load` returned is written again in either format and read as the same |
| Props/TextChunks, Props/TextChunksLoad | C53: how a text is cut does not matter, to the reader and to `load`, `loads` |
| Props/TextLoading, Props/TextTables, Props/TextDumpLoad | C48, C49 |
| Props/TextProtocol | C28, C29 for the text writer; C38 layout: characters, indents, lines |
| Json | model: json_encoder.py and the part of `json.dumps` it relies on |
| JsonSpec | **specification**: the JSON value an Ion value down-converts to |
| Props/* | the property theorems `Cnn_*`; non-vacuity examples beside them; negative theorems where the code deviates |

## Method
Theorems relate the model to specifications that do not mention it (IonSpec, ManagedSpec, SimpleSpec, and small `Spec`
sections). Where the full English statement is false of the code, the proved theorem states the exact conditions, and a
negative theorem (a concrete run of the model) shows that they are needed; see notes/findings.md. Wrong programs: seeded/.

## Plan per property (see properties.jsonl for the statements; MANIFEST.json for the status)
C01-C04 fields: functions on Nat/Int; round trip by induction on octets.  C05 Decimal triples with context rounding.
C06 own strict UTF-8 codec with decode∘encode=id.  C07 floats as 64-bit patterns.  C08 Gregorian calendar model.
C09-C11 BufferTree state machine refined to a recursive spec encoder.  C12,C13 composition of writer and reader theorems.
C14-C19 symbol tables and managed writer: invariants over histories.  C20-C23 managed reader as transducer over arbitrary
raw event histories.  C24-C27, C41-C43 raw reader state machine, simulation between chunkings, invariants.  C28-C29 writer
machines.  C30 queue refinement.  C31-C32 equality by mutual induction on trees (plain tuples, compared with `==`, separately).  C33 constructor model.  C34 refinement to
a list of pairs.  C35-C39 text writer + text reader machine.  C40 UTF-16.  C44 thunk machine.  C45-C47 simple mapping functions.  C48-C49 compose the text reader (events of a grammar document) with the managed reader and `load`; C49 with `dump` and the text writer.  C50: the same reader invariants, on beginnings of texts followed by a mistake.  C51: an invariant of the text reader state, preserved by every handler for every character.  C52: a bound on the steps per character, and a second invariant that implies every assertion.  C53: a relation between two runs on the same text in different pieces, kept by every request; it needs that the queue is only given back what was read last.  C58 symbol table equality from the lookup invariants of C16-C17.  C59 composes C13/C48 (load) with C12/C49 (dump) and C32 (equality); what is kept of a value by `load` is shown to be a fixed point.  C60: the number of open buffer nodes equals the weight of the open containers, for every accepted history; nothing is output before the end of the stream.  C61: streams of the binary grammar and documents of the text grammar can be concatenated, and their meanings with them.  C62 case analysis against an inductive notion of same value.  C63 calendar arithmetic (C08).  C64: an invariant that ties the handler in charge to the type in the context.  C65: a potential (bytes not yet read, weighted, plus open containers) that every request lowers, for termination; an invariant of queue and reader states for the list of exceptions.  C66: the same for text, with the state of the text reader in a comment as the only one that asks for ever; its exceptions from C52, the values of its events and the invariant of the managed reader.  C67: the events that `dump` sends for two objects with the same Ion values are alike (kind, type, `symbolKey` of the symbols, and values that the scalar writers serialize alike); the managed writer, the raw binary writer and the text writer do not distinguish alike events; composed with C12, C49 and C59 for what `load` returns.  C68: the loop of `load`, with the container being filled as an invariant, over the nesting of C54 and the event values of C64; timestamps through the constructor's normal form.  C69, C70: the loops over a declaration, by induction; fields against a separate relation `Filled`.
C71: `Sees` (the invariant of the raw reader over a beginning of a document, C25) is kept through the managed reader and `load` by the relation `Gets`; a return of `load` then
gives `CompleteBefore`: the part is a complete document whose top level is a prefix of the whole; C13 gives its values.  For text, `layout_run` shows that no line feed is written without an indent, and C61
gives the values of the complete lines.
C72: the constructors applied to the parts of a value: `Timestamp.new_inv` gives that a constructed timestamp is rebuilt exactly, the history of C34 gives what `Multimap.__init__` keeps; the value of the
result is stated with the relation `IsValue` of C12, and the output of `dump` follows from C67.
C73: the events of a document are related to its values by the induction of C15 (`seen_values`); a second induction shows that each of them meets the conditions of the writers (`KnownEvent`).  Then C15 for
binary output, and the text writer against the grammar (C38) with C48 for text output. For text the two inductions are one (`text_fine`), and the
tables are followed by the induction over `Denotes` that C48 uses.

## Not modelled
Performance; logging; Python 2 only branches; the C extension (there is none at this commit); text reader features beyond
those listed in the module table; `fp` objects other than files that return what they are asked for.
