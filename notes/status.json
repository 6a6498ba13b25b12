{
 "C01": [
  "proved",
  "round trip at field level for the four field kinds and for int bodies; whole-value round trip is in C12"
 ],
 "C02": [
  "proved",
  "minimal among all fields that denote the same number; octets < 256; the reported count is the length of the octet list in the model"
 ],
 "C03": [
  "proved",
  "cached and uncached encodings agree for all integers; indices are in range"
 ],
 "C04": [
  "proved",
  "all bodies, plus padded VarUInt/VarInt/Int fields"
 ],
 "C10": [
  "proved",
  "all operation sequences of the buffer tree; drained chunks are in document order"
 ],
 "C09": [
  "proved",
  "every document of any depth with regular (C08) and encodable values"
 ],
 "C16": [
  "proved",
  "all histories of table construction and interning"
 ],
 "C17": [
  "partial",
  "lookup by SID and text agrees with the definitions; the `default` argument is ignored for text keys (negative theorem)"
 ],
 "C18": [
  "proved",
  "all import lists"
 ],
 "C19": [
  "proved",
  "all catalog histories"
 ],
 "C23": [
  "partial",
  "Table level and reader level. False after an import named $ion (negative theorem)."
 ],
 "C30": [
  "proved",
  "all legal histories, any segmentation; giving back a byte that was not the last read one is outside the property (shown to corrupt the buffer)"
 ],
 "C34": [
  "proved",
  "all histories; keys compared with decidable equality"
 ],
 "C40": [
  "proved",
  "all code unit sequences, and Python 3 strings"
 ],
 "C44": [
  "proved",
  "all histories of accesses and derivations, for arbitrary delegates; identity of objects is equality of values in the model"
 ],
 "C05": [
  "partial",
  "Holds for every decimal within the decimal context's exponent limits (any sign, negative zero, up to a million digits); outside, the code itself alters the value or raises, so the full statement is false of the code; what it gives there is proved for every decimal (C05_underflow_rounds, C05_out_of_range_raises)."
 ],
 "C06": [
  "proved",
  "Bodies and framing; the reader's framing is proved by the raw-reader theorems."
 ],
 "C07": [
  "proved",
  "All 2^64 bit patterns; exact widening of all 2^32 singles."
 ],
 "C08": [
  "partial",
  "Full statement is false of the code: C08_date_with_offset_altered, C08_long_fraction_altered. Proved for offsets in whole minutes, minute-or-finer precision or no/zero offset, fractions of at most 28 digits."
 ],
 "C33": [
  "partial",
  "Microsecond truncation proved for fractions of at most 28 digits; false beyond (C33_long_fraction_rounded). All other parts unconditional."
 ],
 "C11": [
  "proved",
  "every well-formed event sequence with regular timestamps (C08); also that anything not encodable is rejected without output"
 ],
 "C28": [
  "proved",
  "all histories, for every writer co-routine behind the trampoline whose steps settle; shown for the raw and the managed binary writer and for the text writer (whose last event carries data: DataTrampoline)"
 ],
 "C29": [
  "partial",
  "raw and managed binary writer, all histories; lenient type cases are stated separately (bool by truthiness, bool as int, empty str as lob). Text writer: every ill-formed event raises (C29_text_writer_rejects), but the clause about output is false of it: C29_text_writes_before_rejecting"
 ],
 "C14": [
  "proved",
  "all documents with encodable symbols: text, tokens with text, or IDs defined by the imports; non-empty text field names (empty ones are rejected, C29). Any number of flushes, explicit version markers and imports."
 ],
 "C24": [
  "partial",
  "all well-formed documents, all chunkings, all NEXT/SKIP sequences. The clause about rejected documents is false of the code (C24_malformed_depends_on_chunks). Values must be representable: decimals and fractions within the decimal context (C05, C08)."
 ],
 "C25": [
  "proved",
  "every cut strictly inside a top-level value, all chunkings and requests; non-blocking and blocking reader"
 ],
 "C26": [
  "proved",
  "every well-formed document, any place inside a container; after the corruption of a malformed document (a child that overruns its container) SKIP is outside the property, see findings"
 ],
 "C27": [
  "proved",
  "forbidden calls are rejected for all inputs and histories; that permitted calls are answered and lose nothing is C24 (well-formed documents)"
 ],
 "C41": [
  "proved",
  "padding of any size at any value position at any depth"
 ],
 "C43": [
  "proved",
  "all inputs, malformed ones included, all call sequences"
 ],
 "C20": [
  "proved",
  "Safety for every raw reader and history; completeness and order for every raw reader whose events are well nested (C20_every_user_event), in particular the binary reader for every input and history, and the text reader for every input and every history without a SKIP after the end of a sibling (that the text reader gets wrong by itself, see C51); for documents of values see also C20_*."
 ],
 "C21": [
  "partial",
  "Every well-formed document (any depth, any number of tables and markers), chunking, catalog and request sequence; excluded are the two known deviations of the code (Plain; C21_non_string_symbols_shift_ids)."
 ],
 "C22": [
  "proved",
  "Resolution for every table that can be built; the events of a document by C21."
 ],
 "C15": [
  "proved",
  "All values of any depth, any flush pattern, any chunking, any imports held by the catalog; values that look like system values are excluded (they are lost, see C12)."
 ],
 "C12": [
  "partial",
  "C12_dump_load_partial / C12_loads_dumps_partial: every Python object tree that stands for an Ion value, any depth, with or without imports, any chunking; scalars within C05/C08 limits. Excluded because the code loses them (negative theorems): top-level values that look like system values."
 ],
 "C13": [
  "partial",
  "Every finite sequence of Ion values as in C12 (C13_stream_round_trip_partial), and load of every well-formed document (C13_load_document). False for a symbol dumped with sequence_as_stream (C13_symbol_written_as_stream) and for values that look like system values."
 ],
 "C45": [
  "proved",
  "binary dumps of every object, even when dump raises; detection for every byte stream"
 ],
 "C46": [
  "proved",
  "all classes and class hierarchies; objects of any depth (dump as a whole: C12_dump_load_partial). The documentation is wrong about named tuples (C46_namedtuple_is_list)."
 ],
 "C31": [
  "partial",
  "Symmetric for all objects whose parts with Ion nature have a type that fits their class (plain objects free); reflexive for all comparable objects, plain tuples included if they hold no NaN and no null with Ion nature; transitive on loaded objects. False without an Ion type (C31_untyped_asymmetric) and for plain tuples with a NaN or a typed null, which are compared with == (C31_tuples_not_reflexive); between plain tuples Ion types and annotations do not count (C31_tuples_ignore_nature, C31_tuple_hides_annotations). Missing: NaN decimals."
 ],
 "C32": [
  "partial",
  "C32_equals_iff: exact characterisation for all objects as load makes them, any depth, both modes. Against the data model: equal values are always equal; the converse without repeated fields, NaN, more than six digits of the seconds; false otherwise (C32_repeated_fields, C32_digits_beyond_microseconds). Symbols of unknown text: C32_symbols. Annotations count against plain objects too: C32_annotations_against_plain."
 ],
 "C47": [
  "proved",
  "objects as load returns them (Native), related to the data model value; decimal beyond the float range becomes Infinity in the JSON text (C47_decimal_overflow, negative)"
 ],
 "C42": [
  "proved",
  "All documents that are not well framed (FramingSpec.lean, bodies of scalars not looked at), and separately each listed defect at any depth and after any correct values, raise through the blocking reader for all chunkings. Not Ion but accepted, and excluded by the specification: NOP padding or a version marker inside an annotation wrapper (C42_annotated_padding)."
 ],
 "C35": [
  "proved",
  "every string of Unicode scalar values, any chunking, read as bytes or as str; strings as part of trees are covered by C38"
 ],
 "C36": [
  "partial",
  "proved for every symbol text as value, field name and annotation, except texts `$` + digits and, at the top level, version-marker-like texts, where the statement is false (C36_sid_text, C36_version_marker_text, C36_future_version_text)"
 ],
 "C37": [
  "proved",
  "every int, both bools, 13 nulls; CPython's limit of 4300 digits for int/str conversion is outside the model. A bool given as INT deviates (C37_bool_as_int), which is not an int of the data model"
 ],
 "C38": [
  "partial",
  "round trip proved for all trees, flushes, version markers, and all Ion whitespace indents, for values that text can express; the exceptions (symbol texts like $10, top-level $ion_1_0, NaN payloads, dates with offset, offsets with seconds, indents that are not Ion whitespace) are false of the code, see the negative theorems. float repr/parse is a parameter with an assumption (Faithful)"
 ],
 "C39": [
  "proved",
  "every byte string, for blobs (with the exact base64 text) and clobs"
 ],
 "C48": [
  "partial",
  "proved for every document of the grammar of TextSpec.lean and every division into pieces (left out of the grammar: what the reader rejects or reads wrongly, see the header of TextSpec.lean and the negative theorems C38_*); bytes must be ASCII, because the reader takes bytes for Latin-1"
 ],
 "C49": [
  "partial",
  "proved for all objects that stand for Ion values that text can express, all whitespace indents, all options; the exceptions (symbols with texts like $10, top-level symbols like $ion_1_0, NaN payloads, some timestamps) are false of the code, see C36_sid_text, C36_version_marker_text and the notes of C38. float repr/parse is a parameter with an assumption (Faithful)"
 ],
 "C50": [
  "partial",
  "proved: at every place of every beginning of a text (IsAt), the mistakes listed by IsWrong raise IonException after the events of what stands before, for every division into pieces; and none of these texts is a document of the grammar. The list covers characters that start nothing, missing commas, brackets, unclosed containers, strings, clobs and their ends, blobs, numbers and timestamps, identifiers, keywords, typed nulls, infinities, annotations and field names. Missing: comments, operators in s-expressions, quotes in blobs (the code accepts some, C38_blob_with_quote), texts for which the code raises something else (C52_*_error)"
 ],
 "C51": [
  "partial",
  "proved for every input and every history of requests, with two exceptions the code makes: a symbol in a struct may come without a field name (C51_symbol_without_field_name), and a SKIP after the end of a sibling stops at the wrong end (C51_skip_after_sibling, C51_skip_after_sibling_misplaced), so SKIP is only allowed while the last container event is a start; a SKIP over a truncated container is not answered (C51_skip_truncated_diverges)"
 ],
 "C52": [
  "partial",
  "proved: for every input and every history of requests, every request is answered by an event or one of IonException, TypeError, ValueError, UnicodeDecodeError, AttributeError, no assertion fails, and without SKIP there is always an answer. Missing, because false of the code: the other exceptions are raised for some texts (C52_type_error, C52_value_error, C52_unicode_error, C52_attribute_error), and a SKIP over a truncated list never ends (C52_skip_hangs)"
 ],
 "C53": [
  "partial",
  "proved for every history of requests to the reader, and for load and loads, and every text, well formed or not, in which no slash is directly followed by a carriage return, a backslash or a high surrogate, except at the end of a block comment and at the start of a line comment (TextReader.Whole.Fine); for other texts it is false of the code: C53_return_after_slash, C53_chunks_matter"
 ],
 "C54": [
  "partial",
  "proved: if load returns, the events the reader delivered up to STREAM_END are those of complete values, with nothing else, and one value is returned for each (for every file); and a text with a mistake (IsWrong) is not loaded, with or without local symbol tables before the mistake (with them, for the texts that C53 is about: Fine). Missing, because false of the code: a text that ends within the symbols of a local symbol table may be loaded as if the table were not there (C54_truncated_table_loaded); load of a text that ends within a skipped container of a symbol table does not end (C54_truncated_table_hangs)"
 ],
 "C55": [
  "partial",
  "proved for the binary reader for every input and history; for the text reader with the two exceptions of C51: a symbol in a struct may come without a field name, and no SKIP after the end of a sibling."
 ],
 "C56": [
  "partial",
  "proved for every text, division and history, if the last start or end of a container that was delivered is the start of the container skipped. Missing, because false of the code: after the end of a sibling SKIP goes astray (C51_skip_after_sibling); where reading says STREAM_END within the container, SKIP never answers (part of the theorem). Texts in which a slash that is not part of a comment is followed by a carriage return, a backslash or a high surrogate (not Fine) are excluded, as in C53."
 ],
 "C57": [
  "proved",
  "text: after every beginning of a text of the grammar (IsOpen); binary: after every correct stream; managed reader: on any reader."
 ],
 "C58": [
  "proved",
  "all tables made by the constructor and any history of intern calls; comparison with objects that are not symbol tables is not modelled"
 ],
 "C59": [
  "partial",
  "All four directions, for every text document of the grammar (C48) and every well-formed binary document (C13), any catalog. Missing because false of the code: symbols of unknown text cannot be written again (C59_unknown_symbol_not_written); decimals and timestamps beyond the limits of C05 and C08; for text, what text cannot express (C38, C36_sid_text, C36_version_marker_text). float repr/parse is a parameter with an assumption (Faithful)."
 ],
 "C60": [
  "partial",
  "Proved for binary=True: every failing dump, for every object, options and imports, has written exactly the version marker (the buffer invariant also gives that the end of the stream never fails after the symbol table has been written).  False of the code for text: C60_failed_dump_text shows a failing dump of a stream that leaves a loadable shorter document."
 ],
 "C61": [
  "partial",
  "Proved for binary (any number of dumped documents, each with its own imports and options, cut in any way) and for text if every record that does not end in a bracketed value (list, s-expression, struct, string, blob or clob) is followed by whitespace; nothing has to follow the last record (C61_text_file_partial, with C61_text_records_partial for records that are all followed by whitespace).  False of the code for other text records written directly after each other: C61_text_needs_separator shows that two dumps of True are loaded as the symbol 'true$ion_1_0' and true.  The conditions on objects are those of C12 and C49."
 ],
 "C62": [
  "partial",
  "Proved: == is exactly sameness, and an equivalence relation, for all events whose value has the class of their type, as the readers make them (C64). False of the code: != is inherited from tuple and is not the negation of == (C62_ne_is_not_negation); with values of other classes or plain datetimes == is not symmetric or transitive (C62_other_class_asymmetric, C62_datetime_not_transitive). Non-finite decimals are left out."
 ],
 "C63": [
  "proved",
  "Offsets of whole seconds for adjust_from_utc_fields (the readers give whole minutes)."
 ],
 "C64": [
  "proved",
  "For the readers as modelled; FloatText.parse gives a float for any text it accepts."
 ],
 "C65": [
  "partial",
  "Proved: every request is answered and load of binary data ends, for all bytes and divisions (C65_every_request_is_answered, C65_load_ends); every exception is from a list of eight (C65_load_raises_partial). False of the code: that it is always IonException; the other seven occur (C65_each_occurs), and to a caller who uses SKIP the binary reader may raise IndexError too (C65_skip_indexError)."
 ],
 "C66": [
  "partial",
  "Proved for every file of str or bytes, every division, every catalog filled by register: load returns, raises one of nine listed exceptions, or the text reader itself does not come to an end (it asks for data for ever after the end of all data, or does not answer a SKIP). Missing, because false of the code: it may hang (C66_open_comment_hangs: '''a'''/* ; C66_truncated_table_hangs) and raises other exceptions than IonException (C66_exceptions_occur). float() is assumed to raise only ValueError."
 ],
 "C67": [
  "proved",
  "For objects whose symbols have a text (or are $0) and whose timestamps come from constructors or load. Negative, and outside the claim: the order of fields of a struct is written (C67_field_order_is_written); a dictionary whose repeated fields are not adjacent is regrouped by load (C67_repeated_fields_are_grouped), so the first of the outputs may differ, not later ones (C67_rewriting_is_stable)."
 ],
 "C68": [
  "partial",
  "Text: for every text (C68_text).  Binary: exactly when every timestamp is cut to its precision (C68_binary_exactly), which only a date with an offset can fail to be (C68_binary_partial, C68_date_with_offset); the code accepts such dates, which are not Ion, and shifts them."
 ],
 "C69": [
  "proved",
  "Direct subclasses of Enum. Of two members with the same number only the last is found by number and by iterating (C69_same_number). Members are ints, so that members of different enumerations with the same number are == (not claimed)."
 ],
 "C70": [
  "proved",
  "Names valid for namedtuple are a parameter of the model."
 ],
 "C71": [
  "partial",
  "Proved for binary: for every document and for every number of dumped records before it, cut anywhere, load raises or returns objects that mean the first values, and it raises if the cut is inside a value; for text: dump without an indent writes printable ASCII only, whatever the object, so that the complete lines of a cut file are the first records, and are loaded to their values (conditions on objects as for C12 and C49). False of the code for text that is loaded with its torn last line: C71_torn_line_is_loaded shows that `$ion_1_0 tru`, left of dump(True), is loaded as the symbol tru."
 ],
 "C72": [
  "partial",
  "Proved for scalars of every class (tokens and timestamps made by their constructors), None, lists and S-expressions, and structs, of which the last value of each field name is kept at the place of the first one, so all fields if the names differ; wrapping again; no change of the output of dump (plain values, dictionaries without repeated keys; symbols and timestamps as for C67); copies. False of the code for structs with a repeated field name, as load returns them: C72_repeated_fields_lost shows that _copy and from_value keep the last of the values only."
 ],
 "C73": [
  "partial",
  "Proved for binary documents whose symbols are defined and for text documents of the grammar (Denotes), if all symbols have texts and the target format can express the values (InText, InBinary of C59): text output, compact or with any indent, and binary output with any shared imports. The events of text are those that the blocking reader returns. Missing: the forms of text that the grammar leaves out (those missing in C48). False of the code for symbols with unknown text: C73_unknown_symbol_becomes_another shows a document with the symbols a and $10 (unknown) whose events are written as a and a."
 ]
}