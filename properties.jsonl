{"id": "C01", "title": "Binary integers round-trip", "statement": "Dumping any Python int as binary Ion and loading it back yields the same int, including zero, negatives and arbitrarily large magnitudes; at field level every VarUInt/VarInt/UInt/Int field that the writer emits decodes to the integer that was written.", "quantifier": "every integer (unbounded), every one of the four integer field kinds", "why_tests_cant": "the domain is all integers; boundary effects happen at every multiple of 7 and 8 bits, so no finite list of literals covers it", "anchors": ["amazon/ion/writer_binary_raw_fields.py:_write_base,_write_varuint,_write_uint,_write_varint,_write_int", "amazon/ion/writer_binary_raw.py:_serialize_int", "amazon/ion/reader_binary.py:_parse_var_int_components,_parse_signed_int_components,_int_factory"]}
{"id": "C02", "title": "Integer fields are minimal", "statement": "The binary writer never emits a superfluous leading octet: an unsigned field for n>0 has exactly ceil(bits(n)/b) octets, a signed field exactly bits/b+1 octets, and the reported octet count equals the number of octets appended; every octet fits in 0..255.", "quantifier": "every integer and field kind", "why_tests_cant": "size-optimality is a statement about every value and every competing encoding", "anchors": ["amazon/ion/writer_binary_raw_fields.py:_write_base"]}
{"id": "C03", "title": "The small-value cache is transparent", "statement": "Writing a field through the precomputed cache produces the same octets as writing it without the cache.", "quantifier": "every integer, cached or not, for the four field kinds", "why_tests_cant": "a wrong entry for one value in one table is invisible unless every index is compared", "anchors": ["amazon/ion/writer_binary_raw_fields.py:_FieldCache,_write_signed,_write_unsigned"]}
{"id": "C04", "title": "Binary integer bodies decode as big-endian magnitudes", "statement": "For any body bytes of any length, the int produced by the binary reader is sign times the big-endian value of the body, regardless of how the reader groups the body into 8/4/2/1-byte segments.", "quantifier": "every byte string of every length", "why_tests_cant": "grouping depends on length mod 8 and sizes are unbounded", "anchors": ["amazon/ion/reader_binary.py:_int_factory,_rslice"]}
{"id": "C05", "title": "Decimals round-trip in binary", "statement": "Dumping any finite Decimal (any precision, sign, negative zero, any exponent the decimal module accepts) as binary Ion and loading it gives a Decimal with identical sign, coefficient digits and exponent.", "quantifier": "every finite decimal (sign, coefficient, exponent)", "why_tests_cant": "coefficient and exponent are unbounded and zero has infinitely many distinct representations", "anchors": ["amazon/ion/writer_binary_raw.py:_serialize_decimal,_write_decimal_value", "amazon/ion/reader_binary.py:_parse_decimal"]}
{"id": "C06", "title": "Strings and lobs round-trip in binary", "statement": "Any Unicode text (encodable in UTF-8) and any clob/blob content of any length survives binary dump and load unchanged, and text that is not encodable is rejected with an error instead of being altered.", "quantifier": "every code point sequence and byte string of every length", "why_tests_cant": "content space is infinite and the length header switches representation at 14, 128, 16384, ... bytes", "anchors": ["amazon/ion/writer_binary_raw.py:_serialize_string,_serialize_lob_value,_write_length", "amazon/ion/reader_binary.py:_string_factory,_lob_factory"]}
{"id": "C07", "title": "Floats round-trip bit for bit", "statement": "Any double, including both zeros, subnormals, infinities and NaNs, survives binary dump and load with the same 64-bit pattern; a 32-bit float body is widened exactly.", "quantifier": "all 2^64 double patterns (and all 2^32 float patterns on the read side)", "why_tests_cant": "2^64 values cannot be enumerated; only +0.0 takes the abbreviated path", "anchors": ["amazon/ion/writer_binary_raw.py:_serialize_float", "amazon/ion/reader_binary.py:_float_factory"]}
{"id": "C08", "title": "Timestamps round-trip in binary", "statement": "Dumping a Timestamp and loading it returns the same fields: precision, local offset (including unknown offset), year..second, and fractional seconds with the same number of digits.", "quantifier": "every valid timestamp: all dates in years 1..9999, offsets, precisions and fractions", "why_tests_cant": "UTC normalisation crosses day, month, leap-year and year boundaries for every offset", "anchors": ["amazon/ion/writer_binary_raw.py:_serialize_timestamp,_write_timestamp_fractional_seconds", "amazon/ion/reader_binary.py:_timestamp_factory", "amazon/ion/core.py:Timestamp.adjust_from_utc_fields"]}
{"id": "C09", "title": "Container and annotation lengths are exact", "statement": "In binary output every container header and every annotation wrapper declares exactly the number of bytes of its content, at every nesting depth.", "quantifier": "every value tree of any depth and width", "why_tests_cant": "lengths are accumulated through a stack across nested containers; depth is unbounded", "anchors": ["amazon/ion/writer_buffer.py:BufferTree", "amazon/ion/writer_binary_raw.py:_serialize_container,_serialize_annotation_wrapper"]}
{"id": "C10", "title": "Buffered output is emitted in document order", "statement": "Whatever sequence of scalar/start/end operations is buffered, draining yields each container header immediately before that container's content and every scalar in the order it was added, nothing lost or duplicated, and leaves an empty buffer; draining or ending with unbalanced containers is rejected.", "quantifier": "every operation history", "why_tests_cant": "histories are unbounded and headers are inserted under the leftmost leaf of an arbitrary tree", "anchors": ["amazon/ion/writer_buffer.py:BufferTree,_Node"]}
{"id": "C11", "title": "The raw binary writer emits the Ion encoding of the event tree", "statement": "Sending the events of any sequence of values to the raw binary writer and then STREAM_END outputs a byte string that is, by the Ion 1.0 specification, an encoding of exactly those values (timestamps as far as C08 allows); if one of the values has no encoding, an exception is raised and nothing is output.", "quantifier": "every forest of annotated values", "why_tests_cant": "unbounded depth and width of trees", "anchors": ["amazon/ion/writer_binary_raw.py:_raw_writer_coroutine"]}
{"id": "C12", "title": "Whole documents round-trip in binary", "statement": "loads(dumps(v)) in binary equals v under the Ion data model (types, annotations, field names, order, duplicates, symbol text) for every Ion value tree.", "quantifier": "every Ion value tree", "why_tests_cant": "the composition of interning, buffering, symbol tables and incremental parsing over unbounded documents", "anchors": ["amazon/ion/simpleion.py:dump,load,_dump,_load", "amazon/ion/writer_binary.py", "amazon/ion/reader_managed.py", "amazon/ion/reader_binary.py"]}
{"id": "C13", "title": "Streams of values round-trip", "statement": "Dumping a sequence with sequence_as_stream and loading with single_value=False returns the values in order; single_value=True succeeds exactly when the stream holds one value.", "quantifier": "every finite sequence of Ion values", "why_tests_cant": "number and shape of the values is unbounded", "anchors": ["amazon/ion/simpleion.py:dump,load"]}
{"id": "C14", "title": "Writer symbol IDs always resolve to the right text", "statement": "In the output of the binary writer the local symbol table precedes the values, and every symbol ID used for a symbol value, field name or annotation is defined in that table (system, imported or local) with exactly the text the caller supplied; equal texts share one ID.", "quantifier": "every sequence of events between two flushes", "why_tests_cant": "depends on the whole history of symbols seen so far", "anchors": ["amazon/ion/writer_binary.py:_symbol_table_coroutine,_managed_binary_writer_coroutine"]}
{"id": "C15", "title": "Shared imports round-trip", "statement": "When the writer is given shared tables as imports, symbols found there are written with imported IDs, and a reader whose catalog holds the same tables resolves every ID to the original text.", "quantifier": "every list of shared tables and every document", "why_tests_cant": "any number of tables of any size with overlapping texts", "anchors": ["amazon/ion/writer_binary.py:_symbol_table_coroutine", "amazon/ion/reader_managed.py:_imports_handler,_import_desc_handler"]}
{"id": "C16", "title": "Interning is idempotent and stable", "statement": "In a local symbol table, interning a text twice returns the same token, never reassigns an existing ID, IDs are allocated consecutively, and the number of symbols always equals max_id.", "quantifier": "every history of intern calls on every local table", "why_tests_cant": "quantifies over all histories", "anchors": ["amazon/ion/symbols.py:SymbolTable.intern,SymbolTable.get"]}
{"id": "C17", "title": "Symbol lookup by text returns the first definition", "statement": "Looking up a text returns the token with the smallest ID bearing that text; lookup by ID returns the token at that ID; ID 0 is always the unknown symbol; an ID beyond the table or an absent text yields the caller's default (or KeyError with []).", "quantifier": "every table and key", "why_tests_cant": "tables with repeated texts of any length", "anchors": ["amazon/ion/symbols.py:SymbolTable.get,SymbolTable.__getitem__"]}
{"id": "C18", "title": "Import layout", "statement": "A local table lays out system symbols at 1..9, then the symbols of each import in order, then local symbols; a shared table numbers its symbols from 1 with locations pointing at itself.", "quantifier": "every list of imports and symbols", "why_tests_cant": "number and size of imports are unbounded", "anchors": ["amazon/ion/symbols.py:SymbolTable.__init__"]}
{"id": "C19", "title": "Catalog resolution", "statement": "resolve(name, version, max_id) returns the registered table when version and max_id match exactly; otherwise a table with the requested name and version, exactly max_id symbols, whose first symbols agree with the exact-version table if registered or else the highest registered version, and unknown text beyond; unknown names give all-unknown placeholders; with max_id None only an exact match succeeds.", "quantifier": "every registration history and every request", "why_tests_cant": "depends on the history of registrations and on all version orders", "anchors": ["amazon/ion/symbols.py:SymbolTableCatalog,substitute_symbol_table,placeholder_symbol_table"]}
{"id": "C20", "title": "System values never reach the user of a managed reader", "statement": "Whatever well nested events the raw reader delivers, the managed reader never surfaces a version marker, a top-level local symbol table or any event inside one, and surfaces every other event in order with its structure unchanged.", "quantifier": "every raw event history", "why_tests_cant": "histories are unbounded and symbol tables may be malformed", "anchors": ["amazon/ion/reader_managed.py:managed_reader"]}
{"id": "C21", "title": "Symbol resolution uses the table in force", "statement": "Each surfaced symbol, field name and annotation is resolved against the symbol table defined by the closest preceding version marker/symbol table; later tables never affect earlier events; a version marker resets to the system table.", "quantifier": "every interleaving of values, symbol tables and version markers", "why_tests_cant": "order-dependent over unbounded streams, and values are materialised lazily", "anchors": ["amazon/ion/reader_managed.py:_ManagedContext,_managed_thunk_event,managed_reader"]}
{"id": "C22", "title": "Out-of-range symbol IDs are rejected", "statement": "A symbol ID greater than the current table's max ID raises an error rather than yielding a value; any ID within range yields the token at that ID.", "quantifier": "every table and every ID", "why_tests_cant": "both are unbounded", "anchors": ["amazon/ion/reader_managed.py:_ManagedContext.resolve"]}
{"id": "C23", "title": "Appending to the current symbol table preserves IDs", "statement": "A local symbol table whose imports field is the symbol $ion_symbol_table keeps every ID of the previous table and assigns the next IDs to the new symbols.", "quantifier": "every previous table and every list of new symbols", "why_tests_cant": "chains of appends of any length", "anchors": ["amazon/ion/reader_managed.py:_local_symbol_table_handler", "amazon/ion/symbols.py:SymbolTable.__init__"]}
{"id": "C24", "title": "Chunking does not matter to the binary reader", "statement": "Splitting a complete binary document into data events at arbitrary byte boundaries yields the same sequence of Ion events as supplying it at once, and a document that is rejected for one split is rejected for all.", "quantifier": "every byte string and every split into non-empty chunks", "why_tests_cant": "exponentially many splits of unboundedly long inputs", "anchors": ["amazon/ion/reader_binary.py:_read_data_handler,raw_reader", "amazon/ion/reader.py:reader_trampoline,BufferQueue"]}
{"id": "C25", "title": "Truncation is detected", "statement": "If a binary document is cut strictly inside a top-level value, the reader never reports a clean end of stream: it asks for more data (INCOMPLETE) and the blocking reader raises; every event delivered before is one the full document would have delivered.", "quantifier": "every document and every cut point", "why_tests_cant": "every crash point of every document", "anchors": ["amazon/ion/reader_binary.py", "amazon/ion/reader.py:blocking_reader"]}
{"id": "C26", "title": "Skipping a container equals reading past it", "statement": "After entering a container, SKIP yields that container's CONTAINER_END and leaves the reader at exactly the same place as consuming all remaining children with NEXT.", "quantifier": "every document and every point inside a container", "why_tests_cant": "any point of any nesting", "anchors": ["amazon/ion/reader_binary.py:_container_handler,_read_data_handler"]}
{"id": "C27", "title": "Reader protocol", "statement": "The reader accepts DATA exactly when the previous event asked for data, must be started with NEXT, rejects empty data, rejects SKIP at top level, and never loses state by a legal call.", "quantifier": "every command history", "why_tests_cant": "all histories of commands", "anchors": ["amazon/ion/reader.py:reader_trampoline"]}
{"id": "C28", "title": "Writer protocol", "statement": "A writer accepts None exactly while it has pending output and an event exactly when it does not; flushing always terminates and hands out every buffered byte once, in order.", "quantifier": "every history of sends", "why_tests_cant": "all histories", "anchors": ["amazon/ion/writer.py:writer_trampoline,_drain,blocking_writer"]}
{"id": "C29", "title": "Ill-formed event sequences are rejected", "statement": "The writers reject an unmatched CONTAINER_END, STREAM_END inside a container, a scalar whose Python type does not match its Ion type, and a version marker after values; they never emit output for the rejected event.", "quantifier": "every event history", "why_tests_cant": "all histories", "anchors": ["amazon/ion/writer_binary_raw.py:_raw_writer_coroutine", "amazon/ion/writer_text.py:_raw_writer_coroutine", "amazon/ion/writer.py"]}
{"id": "C30", "title": "The reader buffer is a FIFO", "statement": "Any sequence of extend, read, read_byte, skip and unread on the reader's buffer behaves like a flat byte sequence with a position counter, independent of segment boundaries.", "quantifier": "every operation history and segmentation", "why_tests_cant": "segment/offset bookkeeping over all histories", "anchors": ["amazon/ion/reader.py:BufferQueue"]}
{"id": "C31", "title": "Ion equality is reflexive and symmetric", "statement": "ion_equals(a,a) is true and ion_equals(a,b)==ion_equals(b,a) for every pair of values, in both timestamp modes.", "quantifier": "every pair of values (trees) with or without Ion types and annotations", "why_tests_cant": "pairs of unbounded trees", "anchors": ["amazon/ion/equivalence.py:ion_equals"]}
{"id": "C32", "title": "Ion equality agrees with the data model", "statement": "ion_equals distinguishes exactly what the Ion data model distinguishes: type, annotations, sign of zero, decimal precision, order in sequences, multiset of fields in structs.", "quantifier": "every pair of Ion values", "why_tests_cant": "pairs of unbounded trees", "anchors": ["amazon/ion/equivalence.py:_structs_eq,_sequences_eq,_decimals_eq,_floats_eq,_symbols_eq"]}
{"id": "C33", "title": "Timestamp construction normalises its fraction", "statement": "After construction, microsecond, fractional_precision and fractional_seconds agree: microsecond is the fraction truncated to 6 digits, fractional_precision is min(6, digits), and conflicting or out-of-range arguments raise.", "quantifier": "every combination of constructor arguments", "why_tests_cant": "digits and argument combinations are unbounded", "anchors": ["amazon/ion/core.py:Timestamp.__new__"]}
{"id": "C34", "title": "Multimap behaves like an ordered multi-dict", "statement": "add_item appends, [] returns the newest value, []= replaces all values of the key, del removes them, len counts all values, items lists every value grouped by key in first-insertion order with values in insertion order.", "quantifier": "every history of operations", "why_tests_cant": "all histories", "anchors": ["amazon/ion/core.py:Multimap,MultimapValue"]}
{"id": "C35", "title": "Text strings round-trip", "statement": "Any Unicode string written by the text writer is read back by the text reader as the same string.", "quantifier": "every sequence of code points", "why_tests_cant": "escapes interact with every following character", "anchors": ["amazon/ion/writer_text.py:_bytes_text,_escape", "amazon/ion/reader_text.py:_short_string_handler,_escape_sequence_handler"]}
{"id": "C36", "title": "Text symbols round-trip", "statement": "Any symbol text written by the text writer (as value, field name or annotation) is read back as the same symbol text, never as a keyword, symbol ID or operator.", "quantifier": "every symbol text", "why_tests_cant": "the set of texts that need quoting is infinite", "anchors": ["amazon/ion/writer_text.py:_symbol_needs_quotes,_serialize_symbol_value", "amazon/ion/reader_text.py"]}
{"id": "C37", "title": "Text integers, booleans and nulls round-trip", "statement": "Any int, bool or typed null written as text reads back as itself.", "quantifier": "every integer, both booleans, 13 nulls", "why_tests_cant": "integers are unbounded", "anchors": ["amazon/ion/writer_text.py", "amazon/ion/reader_text.py:_number_or_timestamp_handler,_typed_null_handler"]}
{"id": "C38", "title": "Text containers are well-formed", "statement": "The text writer's output for any value tree, compact or pretty-printed with any whitespace indent, has balanced brackets and separators so that it reads back as the same tree.", "quantifier": "every value tree and every indent", "why_tests_cant": "unbounded trees", "anchors": ["amazon/ion/writer_text.py:_raw_writer_coroutine"]}
{"id": "C39", "title": "Blob text round-trips", "statement": "Any blob written as text is base64 that reads back to the same bytes.", "quantifier": "every byte string", "why_tests_cant": "all lengths mod 3 and all contents", "anchors": ["amazon/ion/writer_text.py:_serialize_blob", "amazon/ion/reader_text.py:_blob_end_handler"]}
{"id": "C40", "title": "Unicode iteration yields code points", "statement": "Iterating a UTF-16 code unit sequence yields exactly the code points it encodes, and raises on every unpaired surrogate.", "quantifier": "every code unit sequence", "why_tests_cant": "all sequences", "anchors": ["amazon/ion/util.py:unicode_iter,_next_code_point"]}
{"id": "C41", "title": "NOP padding is invisible", "statement": "Inserting NOP padding of any size at any value position in a binary document changes no event.", "quantifier": "every document, position and pad size", "why_tests_cant": "all positions and sizes", "anchors": ["amazon/ion/reader_binary.py:_nop_pad_handler"]}
{"id": "C42", "title": "Malformed binary never parses as a complete document", "statement": "Invalid type octets, values overrunning their container, annotation wrappers whose length does not match their single value, nested annotations and version markers below top level all raise when read with NEXT.", "quantifier": "every byte string", "why_tests_cant": "all byte strings", "anchors": ["amazon/ion/reader_binary.py"]}
{"id": "C43", "title": "Events are well nested", "statement": "For every input accepted so far, the sequence of events from the binary reader has matching container starts and ends with correct depths and types, field names exactly inside structs.", "quantifier": "every byte string and command history", "why_tests_cant": "all inputs and histories", "anchors": ["amazon/ion/reader_binary.py:_container_handler"]}
{"id": "C44", "title": "Values are materialised once", "statement": "A lazily decoded event value is computed at most once and every access returns the same object.", "quantifier": "every access history", "why_tests_cant": "all histories", "anchors": ["amazon/ion/core.py:MemoizingThunk,IonThunkEvent"]}
{"id": "C45", "title": "Format detection", "statement": "load treats a byte stream as binary exactly when it starts with E0 01 00 EA, and every binary dump starts with those bytes.", "quantifier": "every dump and byte stream", "why_tests_cant": "all streams", "anchors": ["amazon/ion/simpleion.py:load,dump"]}
{"id": "C46", "title": "Python type mapping", "statement": "dump maps every supported Python value to the documented Ion type, including subclasses, bool before int and tuples as sexp on request, and rejects others.", "quantifier": "every supported object tree", "why_tests_cant": "unbounded trees and class hierarchies", "anchors": ["amazon/ion/simpleion.py:_dump,_ion_type"]}
{"id": "C47", "title": "JSON down-conversion", "statement": "Converting an Ion value to JSON keeps structure and order, maps nulls and non-finite floats to null, and keeps the newest value for duplicate fields.", "quantifier": "every Ion value tree", "why_tests_cant": "unbounded trees", "anchors": ["amazon/ion/json_encoder.py:IonToJSONEncoder.default"]}
{"id": "C48", "title": "Text documents load to the values they denote", "statement": "Loading an Ion text document, as str or bytes and however read() cuts it, returns exactly the values the document denotes, in order: version markers reset the symbol table, local symbol tables declare, import and append symbols, symbol IDs are resolved in the table in force, and no system value is returned.", "quantifier": "every text document, every division into pieces, every catalog", "why_tests_cant": "documents, tables and divisions are unbounded", "anchors": ["amazon/ion/simpleion.py:load,loads,_load", "amazon/ion/reader_text.py", "amazon/ion/reader_managed.py"]}
{"id": "C49", "title": "Whole documents round-trip in text", "statement": "loads(dumps(v, binary=False)) equals v under the Ion data model (types, annotations, field names, order, duplicates, symbol text) for every Ion value tree, with any whitespace indent, with and without version marker.", "quantifier": "every Ion value tree and every combination of options", "why_tests_cant": "the composition of layout, escaping, quoting and incremental parsing over unbounded documents", "anchors": ["amazon/ion/simpleion.py:dump,dumps,load,loads", "amazon/ion/writer_text.py", "amazon/ion/reader_text.py"]}
{"id": "C50", "title": "Wrong texts are rejected", "statement": "Reading Ion text that has a mistake (a character that may start nothing there, a missing comma, a wrong bracket, an unclosed container or string, a bad escape, number, keyword, null, blob or field name) delivers the events of everything before the mistake and then raises IonException, never a value, whatever follows and however the text is cut into pieces.", "quantifier": "every text up to the mistake, every mistake of the listed kinds, everything after it, every division into pieces", "why_tests_cant": "prefixes, mistakes and continuations are unbounded", "anchors": ["amazon/ion/reader_text.py"]}
{"id": "C51", "title": "Text events are well nested", "statement": "Whatever characters the text reader is fed and whatever is requested in any order, the events delivered have matching container starts and ends with correct depths and types, and field names exactly inside structs.", "quantifier": "every character sequence, Ion text or not, every division into pieces, every history of NEXT, SKIP and data", "why_tests_cant": "all inputs and histories", "anchors": ["amazon/ion/reader_text.py:_container_handler,_read_data_handler,reader"]}
{"id": "C52", "title": "The text reader always answers", "statement": "Whatever the text reader is fed and asked, each request is answered by an event or by IonException (other exceptions only for misuse of the protocol); it never fails an internal assertion, never runs into an endless loop.", "quantifier": "every character sequence, Ion text or not, every division into pieces, every history of NEXT, SKIP and data", "why_tests_cant": "all inputs and histories", "anchors": ["amazon/ion/reader_text.py:_container_handler,_skip_trampoline,reader", "amazon/ion/reader.py:reader_trampoline,BufferQueue"]}
{"id": "C53", "title": "How a text is cut does not matter", "statement": "Reading Ion text through blocking_reader gives the same answers (events, exceptions, endless loops) to any history of requests, however input.read cuts the text into pieces, and whether it returns bytes or str, whether the text is well formed or not.", "quantifier": "every text, Ion or not, every two divisions into non-empty pieces, every history of NEXT and SKIP", "why_tests_cant": "all inputs, all divisions and all histories", "anchors": ["amazon/ion/reader_text.py:_container_handler,_next_code_point_handler,reader", "amazon/ion/reader.py:BufferQueue,blocking_reader"]}
{"id": "C54", "title": "load returns whole streams only", "statement": "If load returns, then the reader came to the end of the stream without an exception, every container it started was ended, and exactly one value is returned for each value at the top level, so that a truncated or malformed stream is never loaded in part.", "quantifier": "every file, Ion or not, binary or text, every division into pieces, every catalog, single_value or not", "why_tests_cant": "all inputs and all divisions", "anchors": ["amazon/ion/simpleion.py:load,_load", "amazon/ion/reader.py:blocking_reader", "amazon/ion/reader_managed.py:managed_reader"]}
{"id": "C55", "title": "Events of the managed reader are well nested", "statement": "Whatever bytes or characters the managed reader is fed and whatever is requested in any order, the events delivered to the user have matching container starts and ends with correct depths and types, field names exactly inside structs, and no system value.", "quantifier": "every input, Ion or not, binary or text, every division into pieces, every catalog, every history of NEXT, SKIP and data", "why_tests_cant": "all inputs and histories", "anchors": ["amazon/ion/reader_managed.py:managed_reader", "amazon/ion/reader_binary.py", "amazon/ion/reader_text.py"]}
{"id": "C56", "title": "Skipping a container of a text is reading it", "statement": "Directly within a container of a text, SKIP gives the event of its end that reading to there with NEXT would give, all later answers are the same as after reading, and where reading raises an exception SKIP raises the same.", "quantifier": "every text, Ion or not, every division into pieces, every history of requests before and after", "why_tests_cant": "all inputs, divisions and histories", "anchors": ["amazon/ion/reader_text.py:_skip_trampoline,_container_handler", "amazon/ion/reader.py:blocking_reader"]}
{"id": "C57", "title": "Other versions of Ion are refused", "statement": "A marker at the top level of any version of Ion but 1.0 raises, after the events of all that stands before it, in text and in binary, whatever follows; the managed reader refuses such a marker from any reader.", "quantifier": "every beginning of a document, every other version, everything after it, every division into pieces", "why_tests_cant": "all documents and versions", "anchors": ["amazon/ion/reader_managed.py:managed_reader", "amazon/ion/reader_binary.py:_ivm_handler", "amazon/ion/reader_text.py:_IVMToken"]}
{"id": "C58", "title": "Equal symbol tables are interchangeable", "statement": "Two symbol tables compare equal exactly when they agree in type, name, version, substitute flag and in the tokens of all their symbol IDs; equal tables answer every lookup alike, and any history of intern calls gives the same tokens and keeps them equal.", "quantifier": "every two tables that the constructor and intern can make, every lookup, every history of intern calls", "why_tests_cant": "unbounded tables and histories", "anchors": ["amazon/ion/symbols.py:SymbolTable.__eq__,get,intern"]}
{"id": "C59", "title": "Loaded values can be written again in either format", "statement": "Whatever load returned for a document, text or binary, can be given to dump as a stream, in binary or in text (with any whitespace indent); load of that output returns objects that mean the same Ion values and that ion_equals takes for the first ones.", "quantifier": "every document, text or binary, however cut, with any symbol tables, imports and catalog; every option of dump", "why_tests_cant": "the composition of two formats over unbounded documents", "anchors": ["amazon/ion/simpleion.py:load,dump", "amazon/ion/equivalence.py:ion_equals"]}
{"id": "C60", "title": "A failed dump leaves no partial data", "statement": "If dump raises - because some value inside the object cannot be written, whatever its place, or because of the imports - nothing has been written to the file but the Ion version marker, so that a reader of the file never takes part of the object for the whole.", "quantifier": "every object, every choice of options and imports, every place of the cause", "why_tests_cant": "The cause can be anywhere in an object of any size, before or after any number of symbols and containers; tests fail in a few places.", "anchors": ["amazon/ion/simpleion.py: dump, _dump", "amazon/ion/writer_binary.py: _managed_binary_writer_coroutine", "amazon/ion/writer_buffer.py: BufferTree"]}
{"id": "C61", "title": "Documents can be appended", "statement": "Documents that were written one after another to the same file, each with a dump of its own, with its own imports, options and symbols, are loaded as one stream: load returns the values of all documents, in order, and the symbols of one document do not affect another.", "quantifier": "every number of documents, all objects, options and imports, every way of cutting the file", "why_tests_cant": "Symbol tables, version markers and the state of the reader after any history must not leak from one document to the next.", "anchors": ["amazon/ion/simpleion.py: dump, load", "amazon/ion/reader_managed.py: managed_reader", "amazon/ion/writer_binary.py: _managed_binary_writer_coroutine", "amazon/ion/writer_text.py: raw_writer"]}
{"id": "C62", "title": "Events are compared by what they say", "statement": "Two events are equal (==) exactly if they have the same event type, Ion type, field name, annotations and depth and the same value (floats up to the sign of zero and NaN payloads, decimals and fractions of seconds as numbers, timestamps with the same fields, offset and precision); this is an equivalence relation, and != is its negation.", "quantifier": "every two or three events with values of every class", "why_tests_cant": "The values range over unbounded integers, decimals, texts and all timestamps; transitivity is about all triples.", "anchors": ["amazon/ion/core.py:IonEvent.__eq__"]}
{"id": "C63", "title": "Timestamps from local fields or from UTC fields", "statement": "timestamp() makes the timestamp of the given local fields whose UTC offset is the sum of off_hours and off_minutes, every offset of whole minutes within a day can be given, and values out of range raise ValueError; Timestamp.adjust_from_utc_fields gives the timestamp with the given offset at the instant that the given fields denote in UTC, with the same precision and fraction.", "quantifier": "all fields, offsets, precisions and fractions", "why_tests_cant": "Calendar arithmetic over all dates and offsets, with carries over days, months and years.", "anchors": ["amazon/ion/core.py:timestamp,OffsetTZInfo,Timestamp.adjust_from_utc_fields"]}
{"id": "C64", "title": "The value of every event has the class of its Ion type", "statement": "Whatever a reader (binary, text, or the managed reader over either) is fed and asked, each event it delivers has no value, or a value of the Python class for its Ion type (bool, int, float, Decimal, Timestamp with a valid date, a precision, an offset of whole minutes strictly within a day, a fraction in [0, 1), microseconds agreeing with that fraction, and fields beyond the precision at their least value (for binary data: unless a date has an offset), SymbolToken, str, bytes), unless reading the value raises; only scalar events have values, so that the values of any two events can be compared with ==.", "quantifier": "every byte or character sequence, Ion or not, every division into chunks, every sequence of NEXT, SKIP and data requests, every catalog", "why_tests_cant": "the value is made by one of dozens of handlers that share a mutable context whose type is set by whichever handler ran before (numbers turn into timestamps, quotes into long strings, operators into infinities); the space of handler sequences is unbounded", "anchors": ["amazon/ion/reader_text.py:_HandlerContext", "amazon/ion/reader_text.py:_container_handler", "amazon/ion/reader_binary.py:_HANDLER_DISPATCH_TABLE", "amazon/ion/reader_managed.py:managed_reader", "amazon/ion/core.py:IonEvent"]}
{"id": "C65", "title": "Loading binary data always comes to an end, and fails only in known ways", "statement": "Whatever bytes a file holds, Ion or not, and however read() divides them, load of binary data returns or raises, it never loops; and if it raises then it raises IonException (or a subclass).", "quantifier": "every byte sequence, Ion or not, every division into chunks, every catalog, single_value or not", "why_tests_cant": "termination and the absence of stray exceptions are claims about all inputs; a test shows one input at a time and cannot show that no input loops", "anchors": ["amazon/ion/simpleion.py:load,_load", "amazon/ion/reader.py:blocking_reader,BufferQueue", "amazon/ion/reader_binary.py:raw_reader", "amazon/ion/reader_managed.py:managed_reader"]}
{"id": "C66", "title": "Loading text always comes to an end, and fails only in known ways", "statement": "Whatever characters or bytes a file of text holds, Ion or not, and however read() divides them, load returns or raises, it never loops; and if it raises then it raises IonException (or a subclass).", "quantifier": "every character or byte sequence, Ion or not, every division into chunks, every catalog, single_value or not", "why_tests_cant": "termination and the absence of stray exceptions are claims about all inputs; a test shows one input at a time and cannot show that no input loops", "anchors": ["amazon/ion/simpleion.py:load,_load", "amazon/ion/reader.py:blocking_reader,BufferQueue", "amazon/ion/reader_text.py:_container_handler,reader", "amazon/ion/reader_managed.py:managed_reader"]}
{"id": "C67", "title": "What is written depends on the Ion values only", "statement": "Two Python objects that stand for the same Ion values - of whatever classes, with field names and symbols given as texts or as tokens with that text, with the options that go with them - are dumped as the same bytes in binary, chunk by chunk, and as the same characters in text. So what load returned for two documents with the same values is written alike; writing, loading and writing again, in either format or through the other one, gives the first output again; and so does dump, load, dump of any object without repeated field names.", "quantifier": "every two objects for the same Ion values (symbols known by text or $0, timestamps as constructors or load make them), any size and depth, all options and imports; every loaded document", "why_tests_cant": "a relation between pairs of runs over unbounded objects of different classes; tests compare a few outputs with stored ones", "anchors": ["amazon/ion/simpleion.py:dump,_dump,_FROM_TYPE,_ion_type", "amazon/ion/writer_binary.py:_managed_binary_writer_coroutine,_WriterSymbols", "amazon/ion/writer_binary_raw.py:_serialize_*", "amazon/ion/writer_text.py:raw_writer", "amazon/ion/simple_types.py:_IonNature.from_event,IonPyDict"]}
{"id": "C68", "title": "Everything that load returns is an Ion value", "statement": "Whatever a file holds, Ion or not, and however read() divides it: if load returns, every object it returns is made of the classes for Ion types, nested in lists, s-expressions and structs, and stands for an Ion value; every timestamp in it is a moment that exists (a valid date, an offset of whole minutes within a day, a fraction in [0, 1) with the microseconds that agree, no finer fields than its precision includes). So what was loaded can be dumped and loaded again, as equal objects, whenever the format can express it.", "quantifier": "every character or byte sequence, Ion or not, every division into chunks, every catalog, single_value or not", "why_tests_cant": "the objects are built by handlers from whatever the data says, at any depth of nesting; no finite list of inputs covers the malformed ones that are accepted", "anchors": ["amazon/ion/simpleion.py:load,_load,_FROM_ION_TYPE", "amazon/ion/simple_types.py:IonPyTimestamp,_IonNature.from_event", "amazon/ion/reader_binary.py:_timestamp_factory", "amazon/ion/reader_text.py:_parse_timestamp", "amazon/ion/core.py:Timestamp.adjust_from_utc_fields"]}
{"id": "C69", "title": "Enumerations are what their bodies declare", "statement": "An enumeration (IonType, IonEventType, ...) can be declared exactly when every public name in its body is a number, a method or a property, otherwise TypeError is raised. E.NAME is the member with that name and number; E[n] is the last member declared with n and KeyError if there is none; iterating gives one member for each number, and, if the numbers differ, exactly the declared members in order.", "quantifier": "every class body", "why_tests_cant": "tests use the enumerations of the library; the metaclass is a loop with two dictionaries whose agreement has to hold for every body, duplicates included", "anchors": ["amazon/ion/util.py: _EnumMetaClass", "amazon/ion/util.py: Enum"]}
{"id": "C70", "title": "Records have the fields of their declarations", "statement": "record(...) can be used for a class exactly when its fields are names followed by pairs of name and default, the names being different public identifiers, otherwise ValueError is raised. A call gives each field the value given for it, by position or by name, and otherwise the default declared with that field; it raises TypeError exactly when a field has neither, or is given twice, or there is an argument for no field.", "quantifier": "every declaration and every call", "why_tests_cant": "defaults are stored apart from the names and aligned from the right by Python; that no field can get the default of another must hold for every declaration", "anchors": ["amazon/ion/util.py: _RecordMetaClass", "amazon/ion/util.py: record"]}
{"id": "C71", "title": "What a cut leaves of a file", "statement": "If only the beginning of a file that dump wrote is left (a crash while writing, or a copy that stopped), load either raises or returns the first few values that were written, in order and unaltered; values of documents that were complete are never lost by a later document that was cut. In text, written as one line for each record, the complete lines of what is left are the first records, and are loaded to exactly their values.", "quantifier": "every document and every number of records appended, every point at which the file is cut, every division into chunks", "why_tests_cant": "the cut may be at any byte of documents of any size; tests cut a few files at a few places", "anchors": ["amazon/ion/simpleion.py:dump,load,_load", "amazon/ion/reader.py:blocking_reader", "amazon/ion/reader_binary.py:raw_reader", "amazon/ion/reader_managed.py:managed_reader", "amazon/ion/writer_text.py:raw_writer"]}
{"id": "C72", "title": "Wrapping a value adds a type and annotations only", "statement": "IonPyX.from_value(ion_type, value, annotations) gives an object that stands for the Ion value that the Python value is as that type, with these annotations (a null of the type for None); truth values, texts for symbols and datetimes included; wrapping again replaces the type and annotations and nothing else; wrapping with the type that dump would choose anyway, without annotations, does not change what dump writes. A copy of such an object is equal to it.", "quantifier": "every class with Ion nature, every value, type and annotations", "why_tests_cant": "the constructors rebuild timestamps from their fields and structs from their items; that nothing is lost is a claim about all dates, fractions, offsets and sets of fields", "anchors": ["amazon/ion/simple_types.py:_IonNature.from_value,_copy,_to_constructor_args", "amazon/ion/simple_types.py:IonPySymbol,IonPyTimestamp,IonPyNull", "amazon/ion/core.py:Multimap.__init__,Timestamp.__new__"]}
{"id": "C73", "title": "Events of a reader can be piped to a writer", "statement": "If every event that the managed reader returns for a document is sent, as it is, to a text writer or a binary writer (with or without shared imports of its own), and then a flush, nothing raises, and what was written denotes the values of the document: the symbol tables, imports and symbol IDs of the source do not matter.", "quantifier": "every document, every way of cutting it, every indent and every list of imports of the writer", "why_tests_cant": "the events carry tokens with the IDs and locations of the source, which mean something else in the output; whether the writer ever looks at them is a claim about all documents and tables", "anchors": ["amazon/ion/reader_managed.py:managed_reader", "amazon/ion/reader_text.py:reader", "amazon/ion/reader.py:blocking_reader", "amazon/ion/writer_binary.py:_symbol_table_coroutine,_managed_binary_writer_coroutine", "amazon/ion/writer_text.py:raw_writer", "amazon/ion/core.py:IonThunkEvent"]}
