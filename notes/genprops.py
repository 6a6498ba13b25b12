import json
P=[]
def p(title, statement, quantifier, why, anchors):
    P.append(dict(id="C%02d"%(len(P)+1), title=title, statement=statement, quantifier=quantifier, why_tests_cant=why, anchors=anchors))
B='amazon/ion/'
p("Binary integers round-trip","Dumping any Python int as binary Ion and loading it back yields the same int, including zero, negatives and arbitrarily large magnitudes; at field level every VarUInt/VarInt/UInt/Int field that the writer emits decodes to the integer that was written.","every integer (unbounded), every one of the four integer field kinds","the domain is all integers; boundary effects happen at every multiple of 7 and 8 bits, so no finite list of literals covers it",[B+"writer_binary_raw_fields.py:_write_base,_write_varuint,_write_uint,_write_varint,_write_int",B+"writer_binary_raw.py:_serialize_int",B+"reader_binary.py:_parse_var_int_components,_parse_signed_int_components,_int_factory"])
p("Integer fields are minimal","The binary writer never emits a superfluous leading octet: an unsigned field for n>0 has exactly ceil(bits(n)/b) octets, a signed field exactly bits/b+1 octets, and the reported octet count equals the number of octets appended; every octet fits in 0..255.","every integer and field kind","size-optimality is a statement about every value and every competing encoding",[B+"writer_binary_raw_fields.py:_write_base"])
p("The small-value cache is transparent","Writing a field through the precomputed cache produces the same octets as writing it without the cache.","every integer, cached or not, for the four field kinds","a wrong entry for one value in one table is invisible unless every index is compared",[B+"writer_binary_raw_fields.py:_FieldCache,_write_signed,_write_unsigned"])
p("Binary integer bodies decode as big-endian magnitudes","For any body bytes of any length, the int produced by the binary reader is sign times the big-endian value of the body, regardless of how the reader groups the body into 8/4/2/1-byte segments.","every byte string of every length","grouping depends on length mod 8 and sizes are unbounded",[B+"reader_binary.py:_int_factory,_rslice"])
p("Decimals round-trip in binary","Dumping any finite Decimal (any precision, sign, negative zero, any exponent the decimal module accepts) as binary Ion and loading it gives a Decimal with identical sign, coefficient digits and exponent.","every finite decimal (sign, coefficient, exponent)","coefficient and exponent are unbounded and zero has infinitely many distinct representations",[B+"writer_binary_raw.py:_serialize_decimal,_write_decimal_value",B+"reader_binary.py:_parse_decimal"])
p("Strings and lobs round-trip in binary","Any Unicode text (encodable in UTF-8) and any clob/blob content of any length survives binary dump and load unchanged, and text that is not encodable is rejected with an error instead of being altered.","every code point sequence and byte string of every length","content space is infinite and the length header switches representation at 14, 128, 16384, ... bytes",[B+"writer_binary_raw.py:_serialize_string,_serialize_lob_value,_write_length",B+"reader_binary.py:_string_factory,_lob_factory"])
p("Floats round-trip bit for bit","Any double, including both zeros, subnormals, infinities and NaNs, survives binary dump and load with the same 64-bit pattern; a 32-bit float body is widened exactly.","all 2^64 double patterns (and all 2^32 float patterns on the read side)","2^64 values cannot be enumerated; only +0.0 takes the abbreviated path",[B+"writer_binary_raw.py:_serialize_float",B+"reader_binary.py:_float_factory"])
p("Timestamps round-trip in binary","Dumping a Timestamp and loading it returns the same fields: precision, local offset (including unknown offset), year..second, and fractional seconds with the same number of digits.","every valid timestamp: all dates in years 1..9999, offsets, precisions and fractions","UTC normalisation crosses day, month, leap-year and year boundaries for every offset",[B+"writer_binary_raw.py:_serialize_timestamp,_write_timestamp_fractional_seconds",B+"reader_binary.py:_timestamp_factory",B+"core.py:Timestamp.adjust_from_utc_fields"])
p("Container and annotation lengths are exact","In binary output every container header and every annotation wrapper declares exactly the number of bytes of its content, at every nesting depth.","every value tree of any depth and width","lengths are accumulated through a stack across nested containers; depth is unbounded",[B+"writer_buffer.py:BufferTree",B+"writer_binary_raw.py:_serialize_container,_serialize_annotation_wrapper"])
p("Buffered output is emitted in document order","Whatever sequence of scalar/start/end operations is buffered, draining yields each container header immediately before that container's content and every scalar in the order it was added, nothing lost or duplicated, and leaves an empty buffer; draining or ending with unbalanced containers is rejected.","every operation history","histories are unbounded and headers are inserted under the leftmost leaf of an arbitrary tree",[B+"writer_buffer.py:BufferTree,_Node"])
p("The raw binary writer emits the Ion encoding of the event tree","Sending the events of any sequence of values to the raw binary writer and then STREAM_END outputs a byte string that is, by the Ion 1.0 specification, an encoding of exactly those values (timestamps as far as C08 allows); if one of the values has no encoding, an exception is raised and nothing is output.","every forest of annotated values","unbounded depth and width of trees",[B+"writer_binary_raw.py:_raw_writer_coroutine"])
p("Whole documents round-trip in binary","loads(dumps(v)) in binary equals v under the Ion data model (types, annotations, field names, order, duplicates, symbol text) for every Ion value tree.","every Ion value tree","the composition of interning, buffering, symbol tables and incremental parsing over unbounded documents",[B+"simpleion.py:dump,load,_dump,_load",B+"writer_binary.py",B+"reader_managed.py",B+"reader_binary.py"])
p("Streams of values round-trip","Dumping a sequence with sequence_as_stream and loading with single_value=False returns the values in order; single_value=True succeeds exactly when the stream holds one value.","every finite sequence of Ion values","number and shape of the values is unbounded",[B+"simpleion.py:dump,load"])
p("Writer symbol IDs always resolve to the right text","In the output of the binary writer the local symbol table precedes the values, and every symbol ID used for a symbol value, field name or annotation is defined in that table (system, imported or local) with exactly the text the caller supplied; equal texts share one ID.","every sequence of events between two flushes","depends on the whole history of symbols seen so far",[B+"writer_binary.py:_symbol_table_coroutine,_managed_binary_writer_coroutine"])
p("Shared imports round-trip","When the writer is given shared tables as imports, symbols found there are written with imported IDs, and a reader whose catalog holds the same tables resolves every ID to the original text.","every list of shared tables and every document","any number of tables of any size with overlapping texts",[B+"writer_binary.py:_symbol_table_coroutine",B+"reader_managed.py:_imports_handler,_import_desc_handler"])
p("Interning is idempotent and stable","In a local symbol table, interning a text twice returns the same token, never reassigns an existing ID, IDs are allocated consecutively, and the number of symbols always equals max_id.","every history of intern calls on every local table","quantifies over all histories",[B+"symbols.py:SymbolTable.intern,SymbolTable.get"])
p("Symbol lookup by text returns the first definition","Looking up a text returns the token with the smallest ID bearing that text; lookup by ID returns the token at that ID; ID 0 is always the unknown symbol; an ID beyond the table or an absent text yields the caller's default (or KeyError with []).","every table and key","tables with repeated texts of any length",[B+"symbols.py:SymbolTable.get,SymbolTable.__getitem__"])
p("Import layout","A local table lays out system symbols at 1..9, then the symbols of each import in order, then local symbols; a shared table numbers its symbols from 1 with locations pointing at itself.","every list of imports and symbols","number and size of imports are unbounded",[B+"symbols.py:SymbolTable.__init__"])
p("Catalog resolution","resolve(name, version, max_id) returns the registered table when version and max_id match exactly; otherwise a table with the requested name and version, exactly max_id symbols, whose first symbols agree with the exact-version table if registered or else the highest registered version, and unknown text beyond; unknown names give all-unknown placeholders; with max_id None only an exact match succeeds.","every registration history and every request","depends on the history of registrations and on all version orders",[B+"symbols.py:SymbolTableCatalog,substitute_symbol_table,placeholder_symbol_table"])
p("System values never reach the user of a managed reader","Whatever well nested events the raw reader delivers, the managed reader never surfaces a version marker, a top-level local symbol table or any event inside one, and surfaces every other event in order with its structure unchanged.","every raw event history","histories are unbounded and symbol tables may be malformed",[B+"reader_managed.py:managed_reader"])
p("Symbol resolution uses the table in force","Each surfaced symbol, field name and annotation is resolved against the symbol table defined by the closest preceding version marker/symbol table; later tables never affect earlier events; a version marker resets to the system table.","every interleaving of values, symbol tables and version markers","order-dependent over unbounded streams, and values are materialised lazily",[B+"reader_managed.py:_ManagedContext,_managed_thunk_event,managed_reader"])
p("Out-of-range symbol IDs are rejected","A symbol ID greater than the current table's max ID raises an error rather than yielding a value; any ID within range yields the token at that ID.","every table and every ID","both are unbounded",[B+"reader_managed.py:_ManagedContext.resolve"])
p("Appending to the current symbol table preserves IDs","A local symbol table whose imports field is the symbol $ion_symbol_table keeps every ID of the previous table and assigns the next IDs to the new symbols.","every previous table and every list of new symbols","chains of appends of any length",[B+"reader_managed.py:_local_symbol_table_handler",B+"symbols.py:SymbolTable.__init__"])
p("Chunking does not matter to the binary reader","Splitting a complete binary document into data events at arbitrary byte boundaries yields the same sequence of Ion events as supplying it at once, and a document that is rejected for one split is rejected for all.","every byte string and every split into non-empty chunks","exponentially many splits of unboundedly long inputs",[B+"reader_binary.py:_read_data_handler,raw_reader",B+"reader.py:reader_trampoline,BufferQueue"])
p("Truncation is detected","If a binary document is cut strictly inside a top-level value, the reader never reports a clean end of stream: it asks for more data (INCOMPLETE) and the blocking reader raises; every event delivered before is one the full document would have delivered.","every document and every cut point","every crash point of every document",[B+"reader_binary.py",B+"reader.py:blocking_reader"])
p("Skipping a container equals reading past it","After entering a container, SKIP yields that container's CONTAINER_END and leaves the reader at exactly the same place as consuming all remaining children with NEXT.","every document and every point inside a container","any point of any nesting",[B+"reader_binary.py:_container_handler,_read_data_handler"])
p("Reader protocol","The reader accepts DATA exactly when the previous event asked for data, must be started with NEXT, rejects empty data, rejects SKIP at top level, and never loses state by a legal call.","every command history","all histories of commands",[B+"reader.py:reader_trampoline"])
p("Writer protocol","A writer accepts None exactly while it has pending output and an event exactly when it does not; flushing always terminates and hands out every buffered byte once, in order.","every history of sends","all histories",[B+"writer.py:writer_trampoline,_drain,blocking_writer"])
p("Ill-formed event sequences are rejected","The writers reject an unmatched CONTAINER_END, STREAM_END inside a container, a scalar whose Python type does not match its Ion type, and a version marker after values; they never emit output for the rejected event.","every event history","all histories",[B+"writer_binary_raw.py:_raw_writer_coroutine",B+"writer_text.py:_raw_writer_coroutine",B+"writer.py"])
p("The reader buffer is a FIFO","Any sequence of extend, read, read_byte, skip and unread on the reader's buffer behaves like a flat byte sequence with a position counter, independent of segment boundaries.","every operation history and segmentation","segment/offset bookkeeping over all histories",[B+"reader.py:BufferQueue"])
p("Ion equality is reflexive and symmetric","ion_equals(a,a) is true and ion_equals(a,b)==ion_equals(b,a) for every pair of values, in both timestamp modes.","every pair of values (trees) with or without Ion types and annotations","pairs of unbounded trees",[B+"equivalence.py:ion_equals"])
p("Ion equality agrees with the data model","ion_equals distinguishes exactly what the Ion data model distinguishes: type, annotations, sign of zero, decimal precision, order in sequences, multiset of fields in structs.","every pair of Ion values","pairs of unbounded trees",[B+"equivalence.py:_structs_eq,_sequences_eq,_decimals_eq,_floats_eq,_symbols_eq"])
p("Timestamp construction normalises its fraction","After construction, microsecond, fractional_precision and fractional_seconds agree: microsecond is the fraction truncated to 6 digits, fractional_precision is min(6, digits), and conflicting or out-of-range arguments raise.","every combination of constructor arguments","digits and argument combinations are unbounded",[B+"core.py:Timestamp.__new__"])
p("Multimap behaves like an ordered multi-dict","add_item appends, [] returns the newest value, []= replaces all values of the key, del removes them, len counts all values, items lists every value grouped by key in first-insertion order with values in insertion order.","every history of operations","all histories",[B+"core.py:Multimap,MultimapValue"])
p("Text strings round-trip","Any Unicode string written by the text writer is read back by the text reader as the same string.","every sequence of code points","escapes interact with every following character",[B+"writer_text.py:_bytes_text,_escape",B+"reader_text.py:_short_string_handler,_escape_sequence_handler"])
p("Text symbols round-trip","Any symbol text written by the text writer (as value, field name or annotation) is read back as the same symbol text, never as a keyword, symbol ID or operator.","every symbol text","the set of texts that need quoting is infinite",[B+"writer_text.py:_symbol_needs_quotes,_serialize_symbol_value",B+"reader_text.py"])
p("Text integers, booleans and nulls round-trip","Any int, bool or typed null written as text reads back as itself.","every integer, both booleans, 13 nulls","integers are unbounded",[B+"writer_text.py",B+"reader_text.py:_number_or_timestamp_handler,_typed_null_handler"])
p("Text containers are well-formed","The text writer's output for any value tree, compact or pretty-printed with any whitespace indent, has balanced brackets and separators so that it reads back as the same tree.","every value tree and every indent","unbounded trees",[B+"writer_text.py:_raw_writer_coroutine"])
p("Blob text round-trips","Any blob written as text is base64 that reads back to the same bytes.","every byte string","all lengths mod 3 and all contents",[B+"writer_text.py:_serialize_blob",B+"reader_text.py:_blob_end_handler"])
p("Unicode iteration yields code points","Iterating a UTF-16 code unit sequence yields exactly the code points it encodes, and raises on every unpaired surrogate.","every code unit sequence","all sequences",[B+"util.py:unicode_iter,_next_code_point"])
p("NOP padding is invisible","Inserting NOP padding of any size at any value position in a binary document changes no event.","every document, position and pad size","all positions and sizes",[B+"reader_binary.py:_nop_pad_handler"])
p("Malformed binary never parses as a complete document","Invalid type octets, values overrunning their container, annotation wrappers whose length does not match their single value, nested annotations and version markers below top level all raise when read with NEXT.","every byte string","all byte strings",[B+"reader_binary.py"])
p("Events are well nested","For every input accepted so far, the sequence of events from the binary reader has matching container starts and ends with correct depths and types, field names exactly inside structs.","every byte string and command history","all inputs and histories",[B+"reader_binary.py:_container_handler"])
p("Values are materialised once","A lazily decoded event value is computed at most once and every access returns the same object.","every access history","all histories",[B+"core.py:MemoizingThunk,IonThunkEvent"])
p("Format detection","load treats a byte stream as binary exactly when it starts with E0 01 00 EA, and every binary dump starts with those bytes.","every dump and byte stream","all streams",[B+"simpleion.py:load,dump"])
p("Python type mapping","dump maps every supported Python value to the documented Ion type, including subclasses, bool before int and tuples as sexp on request, and rejects others.","every supported object tree","unbounded trees and class hierarchies",[B+"simpleion.py:_dump,_ion_type"])
p("JSON down-conversion","Converting an Ion value to JSON keeps structure and order, maps nulls and non-finite floats to null, and keeps the newest value for duplicate fields.","every Ion value tree","unbounded trees",[B+"json_encoder.py:IonToJSONEncoder.default"])
p("Text documents load to the values they denote","Loading an Ion text document, as str or bytes and however read() cuts it, returns exactly the values the document denotes, in order: version markers reset the symbol table, local symbol tables declare, import and append symbols, symbol IDs are resolved in the table in force, and no system value is returned.","every text document, every division into pieces, every catalog","documents, tables and divisions are unbounded",[B+"simpleion.py:load,loads,_load",B+"reader_text.py",B+"reader_managed.py"])
p("Whole documents round-trip in text","loads(dumps(v, binary=False)) equals v under the Ion data model (types, annotations, field names, order, duplicates, symbol text) for every Ion value tree, with any whitespace indent, with and without version marker.","every Ion value tree and every combination of options","the composition of layout, escaping, quoting and incremental parsing over unbounded documents",[B+"simpleion.py:dump,dumps,load,loads",B+"writer_text.py",B+"reader_text.py"])
p("Wrong texts are rejected","Reading Ion text that has a mistake (a character that may start nothing there, a missing comma, a wrong bracket, an unclosed container or string, a bad escape, number, keyword, null, blob or field name) delivers the events of everything before the mistake and then raises IonException, never a value, whatever follows and however the text is cut into pieces.","every text up to the mistake, every mistake of the listed kinds, everything after it, every division into pieces","prefixes, mistakes and continuations are unbounded",[B+"reader_text.py"])
p("Text events are well nested","Whatever characters the text reader is fed and whatever is requested in any order, the events delivered have matching container starts and ends with correct depths and types, and field names exactly inside structs.","every character sequence, Ion text or not, every division into pieces, every history of NEXT, SKIP and data","all inputs and histories",[B+"reader_text.py:_container_handler,_read_data_handler,reader"])
p("The text reader always answers","Whatever the text reader is fed and asked, each request is answered by an event or by IonException (other exceptions only for misuse of the protocol); it never fails an internal assertion, never runs into an endless loop.","every character sequence, Ion text or not, every division into pieces, every history of NEXT, SKIP and data","all inputs and histories",[B+"reader_text.py:_container_handler,_skip_trampoline,reader",B+"reader.py:reader_trampoline,BufferQueue"])
p("How a text is cut does not matter","Reading Ion text through blocking_reader gives the same answers (events, exceptions, endless loops) to any history of requests, however input.read cuts the text into pieces, and whether it returns bytes or str, whether the text is well formed or not.","every text, Ion or not, every two divisions into non-empty pieces, every history of NEXT and SKIP","all inputs, all divisions and all histories",[B+"reader_text.py:_container_handler,_next_code_point_handler,reader",B+"reader.py:BufferQueue,blocking_reader"])
p("load returns whole streams only","If load returns, then the reader came to the end of the stream without an exception, every container it started was ended, and exactly one value is returned for each value at the top level, so that a truncated or malformed stream is never loaded in part.","every file, Ion or not, binary or text, every division into pieces, every catalog, single_value or not","all inputs and all divisions",[B+"simpleion.py:load,_load",B+"reader.py:blocking_reader",B+"reader_managed.py:managed_reader"])
p("Events of the managed reader are well nested","Whatever bytes or characters the managed reader is fed and whatever is requested in any order, the events delivered to the user have matching container starts and ends with correct depths and types, field names exactly inside structs, and no system value.","every input, Ion or not, binary or text, every division into pieces, every catalog, every history of NEXT, SKIP and data","all inputs and histories",[B+"reader_managed.py:managed_reader",B+"reader_binary.py",B+"reader_text.py"])
p("Skipping a container of a text is reading it","Directly within a container of a text, SKIP gives the event of its end that reading to there with NEXT would give, all later answers are the same as after reading, and where reading raises an exception SKIP raises the same.","every text, Ion or not, every division into pieces, every history of requests before and after","all inputs, divisions and histories",[B+"reader_text.py:_skip_trampoline,_container_handler",B+"reader.py:blocking_reader"])
p("Other versions of Ion are refused","A marker at the top level of any version of Ion but 1.0 raises, after the events of all that stands before it, in text and in binary, whatever follows; the managed reader refuses such a marker from any reader.","every beginning of a document, every other version, everything after it, every division into pieces","all documents and versions",[B+"reader_managed.py:managed_reader",B+"reader_binary.py:_ivm_handler",B+"reader_text.py:_IVMToken"])
p("Equal symbol tables are interchangeable","Two symbol tables compare equal exactly when they agree in type, name, version, substitute flag and in the tokens of all their symbol IDs; equal tables answer every lookup alike, and any history of intern calls gives the same tokens and keeps them equal.","every two tables that the constructor and intern can make, every lookup, every history of intern calls","unbounded tables and histories",[B+"symbols.py:SymbolTable.__eq__,get,intern"])
p("Loaded values can be written again in either format","Whatever load returned for a document, text or binary, can be given to dump as a stream, in binary or in text (with any whitespace indent); load of that output returns objects that mean the same Ion values and that ion_equals takes for the first ones.","every document, text or binary, however cut, with any symbol tables, imports and catalog; every option of dump","the composition of two formats over unbounded documents",[B+"simpleion.py:load,dump",B+"equivalence.py:ion_equals"])
p("A failed dump leaves no partial data", "If dump raises - because some value inside the object cannot be written, whatever its place, or because of the imports - nothing has been written to the file but the Ion version marker, so that a reader of the file never takes part of the object for the whole.", "every object, every choice of options and imports, every place of the cause", "The cause can be anywhere in an object of any size, before or after any number of symbols and containers; tests fail in a few places.", ["amazon/ion/simpleion.py: dump, _dump", "amazon/ion/writer_binary.py: _managed_binary_writer_coroutine", "amazon/ion/writer_buffer.py: BufferTree"])
p("Documents can be appended", "Documents that were written one after another to the same file, each with a dump of its own, with its own imports, options and symbols, are loaded as one stream: load returns the values of all documents, in order, and the symbols of one document do not affect another.", "every number of documents, all objects, options and imports, every way of cutting the file", "Symbol tables, version markers and the state of the reader after any history must not leak from one document to the next.", ["amazon/ion/simpleion.py: dump, load", "amazon/ion/reader_managed.py: managed_reader", "amazon/ion/writer_binary.py: _managed_binary_writer_coroutine", "amazon/ion/writer_text.py: raw_writer"])
p("Events are compared by what they say", "Two events are equal (==) exactly if they have the same event type, Ion type, field name, annotations and depth and the same value (floats up to the sign of zero and NaN payloads, decimals and fractions of seconds as numbers, timestamps with the same fields, offset and precision); this is an equivalence relation, and != is its negation.", "every two or three events with values of every class", "The values range over unbounded integers, decimals, texts and all timestamps; transitivity is about all triples.", [B+"core.py:IonEvent.__eq__"])
p("Timestamps from local fields or from UTC fields", "timestamp() makes the timestamp of the given local fields whose UTC offset is the sum of off_hours and off_minutes, every offset of whole minutes within a day can be given, and values out of range raise ValueError; Timestamp.adjust_from_utc_fields gives the timestamp with the given offset at the instant that the given fields denote in UTC, with the same precision and fraction.", "all fields, offsets, precisions and fractions", "Calendar arithmetic over all dates and offsets, with carries over days, months and years.", [B+"core.py:timestamp,OffsetTZInfo,Timestamp.adjust_from_utc_fields"])
p("The value of every event has the class of its Ion type", "Whatever a reader (binary, text, or the managed reader over either) is fed and asked, each event it delivers has no value, or a value of the Python class for its Ion type (bool, int, float, Decimal, Timestamp with a valid date, a precision, an offset of whole minutes strictly within a day, a fraction in [0, 1), microseconds agreeing with that fraction, and fields beyond the precision at their least value (for binary data: unless a date has an offset), SymbolToken, str, bytes), unless reading the value raises; only scalar events have values, so that the values of any two events can be compared with ==.", "every byte or character sequence, Ion or not, every division into chunks, every sequence of NEXT, SKIP and data requests, every catalog", "the value is made by one of dozens of handlers that share a mutable context whose type is set by whichever handler ran before (numbers turn into timestamps, quotes into long strings, operators into infinities); the space of handler sequences is unbounded", ["amazon/ion/reader_text.py:_HandlerContext", "amazon/ion/reader_text.py:_container_handler", "amazon/ion/reader_binary.py:_HANDLER_DISPATCH_TABLE", "amazon/ion/reader_managed.py:managed_reader", "amazon/ion/core.py:IonEvent"])
p("Loading binary data always comes to an end, and fails only in known ways", "Whatever bytes a file holds, Ion or not, and however read() divides them, load of binary data returns or raises, it never loops; and if it raises then it raises IonException (or a subclass).", "every byte sequence, Ion or not, every division into chunks, every catalog, single_value or not", "termination and the absence of stray exceptions are claims about all inputs; a test shows one input at a time and cannot show that no input loops", [B+"simpleion.py:load,_load", B+"reader.py:blocking_reader,BufferQueue", B+"reader_binary.py:raw_reader", B+"reader_managed.py:managed_reader"])
p("Loading text always comes to an end, and fails only in known ways", "Whatever characters or bytes a file of text holds, Ion or not, and however read() divides them, load returns or raises, it never loops; and if it raises then it raises IonException (or a subclass).", "every character or byte sequence, Ion or not, every division into chunks, every catalog, single_value or not", "termination and the absence of stray exceptions are claims about all inputs; a test shows one input at a time and cannot show that no input loops", [B+"simpleion.py:load,_load", B+"reader.py:blocking_reader,BufferQueue", B+"reader_text.py:_container_handler,reader", B+"reader_managed.py:managed_reader"])
p("What is written depends on the Ion values only", "Two Python objects that stand for the same Ion values - of whatever classes, with field names and symbols given as texts or as tokens with that text, with the options that go with them - are dumped as the same bytes in binary, chunk by chunk, and as the same characters in text. So what load returned for two documents with the same values is written alike; writing, loading and writing again, in either format or through the other one, gives the first output again; and so does dump, load, dump of any object without repeated field names.", "every two objects for the same Ion values (symbols known by text or $0, timestamps as constructors or load make them), any size and depth, all options and imports; every loaded document", "a relation between pairs of runs over unbounded objects of different classes; tests compare a few outputs with stored ones", [B+"simpleion.py:dump,_dump,_FROM_TYPE,_ion_type", B+"writer_binary.py:_managed_binary_writer_coroutine,_WriterSymbols", B+"writer_binary_raw.py:_serialize_*", B+"writer_text.py:raw_writer", B+"simple_types.py:_IonNature.from_event,IonPyDict"])
p("Everything that load returns is an Ion value", "Whatever a file holds, Ion or not, and however read() divides it: if load returns, every object it returns is made of the classes for Ion types, nested in lists, s-expressions and structs, and stands for an Ion value; every timestamp in it is a moment that exists (a valid date, an offset of whole minutes within a day, a fraction in [0, 1) with the microseconds that agree, no finer fields than its precision includes). So what was loaded can be dumped and loaded again, as equal objects, whenever the format can express it.", "every character or byte sequence, Ion or not, every division into chunks, every catalog, single_value or not", "the objects are built by handlers from whatever the data says, at any depth of nesting; no finite list of inputs covers the malformed ones that are accepted", [B+"simpleion.py:load,_load,_FROM_ION_TYPE", B+"simple_types.py:IonPyTimestamp,_IonNature.from_event", B+"reader_binary.py:_timestamp_factory", B+"reader_text.py:_parse_timestamp", B+"core.py:Timestamp.adjust_from_utc_fields"])
p("Enumerations are what their bodies declare", "An enumeration (IonType, IonEventType, ...) can be declared exactly when every public name in its body is a number, a method or a property, otherwise TypeError is raised. E.NAME is the member with that name and number; E[n] is the last member declared with n and KeyError if there is none; iterating gives one member for each number, and, if the numbers differ, exactly the declared members in order.", "every class body", "tests use the enumerations of the library; the metaclass is a loop with two dictionaries whose agreement has to hold for every body, duplicates included", [B+"util.py: _EnumMetaClass", B+"util.py: Enum"])
p("Records have the fields of their declarations", "record(...) can be used for a class exactly when its fields are names followed by pairs of name and default, the names being different public identifiers, otherwise ValueError is raised. A call gives each field the value given for it, by position or by name, and otherwise the default declared with that field; it raises TypeError exactly when a field has neither, or is given twice, or there is an argument for no field.", "every declaration and every call", "defaults are stored apart from the names and aligned from the right by Python; that no field can get the default of another must hold for every declaration", [B+"util.py: _RecordMetaClass", B+"util.py: record"])
p("What a cut leaves of a file", "If only the beginning of a file that dump wrote is left (a crash while writing, or a copy that stopped), load either raises or returns the first few values that were written, in order and unaltered; values of documents that were complete are never lost by a later document that was cut. In text, written as one line for each record, the complete lines of what is left are the first records, and are loaded to exactly their values.", "every document and every number of records appended, every point at which the file is cut, every division into chunks", "the cut may be at any byte of documents of any size; tests cut a few files at a few places", [B+"simpleion.py:dump,load,_load", B+"reader.py:blocking_reader", B+"reader_binary.py:raw_reader", B+"reader_managed.py:managed_reader", B+"writer_text.py:raw_writer"])
p("Wrapping a value adds a type and annotations only", "IonPyX.from_value(ion_type, value, annotations) gives an object that stands for the Ion value that the Python value is as that type, with these annotations (a null of the type for None); truth values, texts for symbols and datetimes included; wrapping again replaces the type and annotations and nothing else; wrapping with the type that dump would choose anyway, without annotations, does not change what dump writes. A copy of such an object is equal to it.", "every class with Ion nature, every value, type and annotations", "the constructors rebuild timestamps from their fields and structs from their items; that nothing is lost is a claim about all dates, fractions, offsets and sets of fields", [B+"simple_types.py:_IonNature.from_value,_copy,_to_constructor_args", B+"simple_types.py:IonPySymbol,IonPyTimestamp,IonPyNull", B+"core.py:Multimap.__init__,Timestamp.__new__"])
p("Events of a reader can be piped to a writer", "If every event that the managed reader returns for a document is sent, as it is, to a text writer or a binary writer (with or without shared imports of its own), and then a flush, nothing raises, and what was written denotes the values of the document: the symbol tables, imports and symbol IDs of the source do not matter.", "every document, every way of cutting it, every indent and every list of imports of the writer", "the events carry tokens with the IDs and locations of the source, which mean something else in the output; whether the writer ever looks at them is a claim about all documents and tables", [B+"reader_managed.py:managed_reader", B+"reader_text.py:reader", B+"reader.py:blocking_reader", B+"writer_binary.py:_symbol_table_coroutine,_managed_binary_writer_coroutine", B+"writer_text.py:raw_writer", B+"core.py:IonThunkEvent"])
open('/verif/properties.jsonl','w').write(''.join(json.dumps(x)+'\n' for x in P))
print(len(P))
