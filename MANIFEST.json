{
 "claims": [
  {
   "property": "C01",
   "status": "proved",
   "theorems": [
    "Ion.Fields.C01_varuint",
    "Ion.Fields.C01_varint",
    "Ion.Fields.C01_uint",
    "Ion.Fields.C01_int",
    "Ion.Fields.C01_octets_in_range"
   ],
   "note": "round trip at field level for the four field kinds and for int bodies; whole-value round trip is in C12"
  },
  {
   "property": "C02",
   "status": "proved",
   "theorems": [
    "Ion.Fields.C02_varuint",
    "Ion.Fields.C02_uint",
    "Ion.Fields.C02_varint",
    "Ion.Fields.C02_int"
   ],
   "note": "minimal among all fields that denote the same number; octets < 256; the reported count is the length of the octet list in the model"
  },
  {
   "property": "C03",
   "status": "proved",
   "theorems": [
    "Ion.Fields.C03_cache_transparent",
    "Ion.Fields.C03_cache_index_in_range",
    "Ion.Fields.C03_cache_index_in_range_unsigned"
   ],
   "note": "cached and uncached encodings agree for all integers; indices are in range"
  },
  {
   "property": "C04",
   "status": "proved",
   "theorems": [
    "Ion.Fields.C04_parse_int",
    "Ion.Fields.C04_parse_varuint",
    "Ion.Fields.C04_parse_varint",
    "Ion.Fields.C04_parse_signed",
    "Ion.Fields.C04_truncated_varuint"
   ],
   "note": "all bodies, plus padded VarUInt/VarInt/Int fields"
  },
  {
   "property": "C05",
   "status": "partial",
   "theorems": [
    "Ion.Scalars.C05_writer_exact",
    "Ion.Scalars.C05_writer_accepts",
    "Ion.Scalars.C05_reader_exact",
    "Ion.Scalars.C05_roundtrip_partial",
    "Ion.Scalars.C05_underflow_rounds",
    "Ion.Scalars.C05_out_of_range_raises",
    "Ion.Scalars.C05_underflow_alters_value"
   ],
   "note": "Holds for every decimal within the decimal context's exponent limits (any sign, negative zero, up to a million digits); outside, the code itself alters the value or raises, so the full statement is false of the code; what it gives there is proved for every decimal (C05_underflow_rounds, C05_out_of_range_raises)."
  },
  {
   "property": "C06",
   "status": "proved",
   "theorems": [
    "Ion.Scalars.C06_string_roundtrip",
    "Ion.Scalars.C06_string_accepts",
    "Ion.Scalars.C06_lob_roundtrip"
   ],
   "note": "Bodies and framing; the reader's framing is proved by the raw-reader theorems."
  },
  {
   "property": "C07",
   "status": "proved",
   "theorems": [
    "Ion.Scalars.C07_float_bits",
    "Ion.Scalars.C07_widen_exact",
    "Ion.Scalars.C07_float_bodies"
   ],
   "note": "All 2^64 bit patterns; exact widening of all 2^32 singles."
  },
  {
   "property": "C08",
   "status": "partial",
   "theorems": [
    "Ion.DateTime.C08_shift_exact",
    "Ion.Scalars.C08_roundtrip_partial",
    "Ion.Scalars.C08_writer_accepts",
    "Ion.Scalars.C08_date_with_offset_altered",
    "Ion.Scalars.C08_long_fraction_altered"
   ],
   "note": "Full statement is false of the code: C08_date_with_offset_altered, C08_long_fraction_altered. Proved for offsets in whole minutes, minute-or-finer precision or no/zero offset, fractions of at most 28 digits."
  },
  {
   "property": "C09",
   "status": "proved",
   "theorems": [
    "Ion.BufferTree.C09_current_length_exact",
    "Ion.RawWriter.C09_lengths_exact"
   ],
   "note": "every document of any depth with regular (C08) and encodable values"
  },
  {
   "property": "C10",
   "status": "proved",
   "theorems": [
    "Ion.BufferTree.C10_drain_document_order"
   ],
   "note": "all operation sequences of the buffer tree; drained chunks are in document order"
  },
  {
   "property": "C11",
   "status": "proved",
   "theorems": [
    "Ion.RawWriter.C11_raw_writer_encodes",
    "Ion.RawWriter.C11_raw_writer_flushes"
   ],
   "note": "every well-formed event sequence with regular timestamps (C08); also that anything not encodable is rejected without output"
  },
  {
   "property": "C12",
   "status": "partial",
   "theorems": [
    "Ion.Simple.C12_dump_load_partial",
    "Ion.Simple.C12_loads_dumps_partial",
    "Ion.ManagedWriter.C12_marker_symbol_lost",
    "Ion.ManagedWriter.C12_annotated_struct_lost"
   ],
   "note": "C12_dump_load_partial / C12_loads_dumps_partial: every Python object tree that stands for an Ion value, any depth, with or without imports, any chunking; scalars within C05/C08 limits. Excluded because the code loses them (negative theorems): top-level values that look like system values."
  },
  {
   "property": "C13",
   "status": "partial",
   "theorems": [
    "Ion.Simple.C13_load_document",
    "Ion.Simple.C13_stream_round_trip_partial",
    "Ion.Simple.C13_symbol_written_as_stream"
   ],
   "note": "Every finite sequence of Ion values as in C12 (C13_stream_round_trip_partial), and load of every well-formed document (C13_load_document). False for a symbol dumped with sequence_as_stream (C13_symbol_written_as_stream) and for values that look like system values."
  },
  {
   "property": "C14",
   "status": "proved",
   "theorems": [
    "Ion.ManagedWriter.C14_binary_writer_segment",
    "Ion.ManagedWriter.C14_binary_writer_stream",
    "Ion.ManagedWriter.C14_only_shared_imports",
    "Ion.ManagedWriter.C14_ids_resolve"
   ],
   "note": "all documents with encodable symbols: text, tokens with text, or IDs defined by the imports; non-empty text field names (empty ones are rejected, C29). Any number of flushes, explicit version markers and imports."
  },
  {
   "property": "C15",
   "status": "proved",
   "theorems": [
    "Ion.ManagedWriter.C15_binary_round_trip",
    "Ion.ManagedWriter.C15_imported_ids"
   ],
   "note": "All values of any depth, any flush pattern, any chunking, any imports held by the catalog; values that look like system values are excluded (they are lost, see C12)."
  },
  {
   "property": "C16",
   "status": "proved",
   "theorems": [
    "Ion.SymbolTable.C16_intern",
    "Ion.SymbolTable.C16_intern_idempotent",
    "Ion.SymbolTable.C16_intern_history",
    "Ion.SymbolTable.C16_ids_injective",
    "Ion.SymbolTable.C16_shared_rejected"
   ],
   "note": "all histories of table construction and interning"
  },
  {
   "property": "C17",
   "status": "partial",
   "theorems": [
    "Ion.SymbolTable.C17_get_text",
    "Ion.SymbolTable.C17_get_text_absent",
    "Ion.SymbolTable.C17_get_sid",
    "Ion.SymbolTable.C17_default_ignored"
   ],
   "note": "lookup by SID and text agrees with the definitions; the `default` argument is ignored for text keys (negative theorem)"
  },
  {
   "property": "C18",
   "status": "proved",
   "theorems": [
    "Ion.SymbolTable.C18_local_layout",
    "Ion.SymbolTable.C18_shared_layout",
    "Ion.SymbolTable.C18_shared_version"
   ],
   "note": "all import lists"
  },
  {
   "property": "C19",
   "status": "proved",
   "theorems": [
    "Ion.Catalog.C19_resolve",
    "Ion.Catalog.C19_resolve_refused",
    "Ion.Catalog.C19_register_refused"
   ],
   "note": "all catalog histories"
  },
  {
   "property": "C20",
   "status": "proved",
   "theorems": [
    "Ion.ManagedReader.C20_every_user_event",
    "Ion.ManagedReader.C20_every_user_event_binary",
    "Ion.ManagedReader.C20_every_user_event_text",
    "Ion.ManagedReader.C20_no_system_values",
    "Ion.ManagedReader.C20_all_user_values_of_plain_documents"
   ],
   "note": "Safety for every raw reader and history; completeness and order for every raw reader whose events are well nested (C20_every_user_event), in particular the binary reader for every input and history, and the text reader for every input and every history without a SKIP after the end of a sibling (that the text reader gets wrong by itself, see C51); for documents of values see also C20_*."
  },
  {
   "property": "C21",
   "status": "partial",
   "theorems": [
    "Ion.ManagedReader.C21_symbols_resolved_in_force_partial",
    "Ion.ManagedReader.C21_later_tables_do_not_matter",
    "Ion.ManagedReader.C21_tables_start_with_system",
    "Ion.ManagedReader.C21_non_string_symbols_shift_ids"
   ],
   "note": "Every well-formed document (any depth, any number of tables and markers), chunking, catalog and request sequence; excluded are the two known deviations of the code (Plain; C21_non_string_symbols_shift_ids)."
  },
  {
   "property": "C22",
   "status": "proved",
   "theorems": [
    "Ion.ManagedReader.C22_symbol_ids",
    "Ion.ManagedReader.C22_events"
   ],
   "note": "Resolution for every table that can be built; the events of a document by C21."
  },
  {
   "property": "C23",
   "status": "partial",
   "theorems": [
    "Ion.ManagedReader.C23_append_in_document",
    "Ion.SymbolTable.C23_append_table_partial",
    "Ion.SymbolTable.C23_append_shifts_after_ion_import"
   ],
   "note": "Table level and reader level. False after an import named $ion (negative theorem)."
  },
  {
   "property": "C24",
   "status": "partial",
   "theorems": [
    "Ion.RawReader.C24_reader_follows_document_partial",
    "Ion.RawReader.C24_chunking_irrelevant",
    "Ion.RawReader.C24_malformed_depends_on_chunks"
   ],
   "note": "all well-formed documents, all chunkings, all NEXT/SKIP sequences. The clause about rejected documents is false of the code (C24_malformed_depends_on_chunks). Values must be representable: decimals and fractions within the decimal context (C05, C08)."
  },
  {
   "property": "C25",
   "status": "proved",
   "theorems": [
    "Ion.RawReader.C25_truncation",
    "Ion.RawReader.C25_truncation_reported",
    "Ion.RawReader.C25_blocking_reader_raises"
   ],
   "note": "every cut strictly inside a top-level value, all chunkings and requests; non-blocking and blocking reader"
  },
  {
   "property": "C26",
   "status": "proved",
   "theorems": [
    "Ion.RawReader.C26_skip_equals_reading"
   ],
   "note": "every well-formed document, any place inside a container; after the corruption of a malformed document (a child that overruns its container) SKIP is outside the property, see findings"
  },
  {
   "property": "C27",
   "status": "proved",
   "theorems": [
    "Ion.RawReader.C27_illegal_calls_rejected"
   ],
   "note": "forbidden calls are rejected for all inputs and histories; that permitted calls are answered and lose nothing is C24 (well-formed documents)"
  },
  {
   "property": "C28",
   "status": "proved",
   "theorems": [
    "Ion.ManagedWriter.C28_binary_writer_settles",
    "Ion.RawWriter.C28_raw_writer_settles",
    "Ion.TextWriter.C28_text_protocol",
    "Ion.TextWriter.C28_text_flush",
    "Ion.TextWriter.C28_text_output",
    "Ion.Trampoline.C28_protocol",
    "Ion.Trampoline.C28_flush",
    "Ion.Trampoline.C28_output",
    "Ion.Trampoline.C28_output_new"
   ],
   "note": "all histories, for every writer co-routine behind the trampoline whose steps settle; shown for the raw and the managed binary writer and for the text writer (whose last event carries data: DataTrampoline)"
  },
  {
   "property": "C29",
   "status": "partial",
   "theorems": [
    "Ion.ManagedWriter.C29_binary_writer_rejects",
    "Ion.RawWriter.C29_raw_writer_rejects",
    "Ion.RawWriter.C29_lenient_cases",
    "Ion.TextWriter.C29_text_writer_rejects",
    "Ion.TextWriter.C29_text_writes_before_rejecting"
   ],
   "note": "raw and managed binary writer, all histories; lenient type cases are stated separately (bool by truthiness, bool as int, empty str as lob). Text writer: every ill-formed event raises (C29_text_writer_rejects), but the clause about output is false of it: C29_text_writes_before_rejecting"
  },
  {
   "property": "C30",
   "status": "proved",
   "theorems": [
    "Ion.Queue.C30_queue_is_fifo",
    "Ion.Queue.C30_wrong_unread_corrupts"
   ],
   "note": "all legal histories, any segmentation; giving back a byte that was not the last read one is outside the property (shown to corrupt the buffer)"
  },
  {
   "property": "C31",
   "status": "partial",
   "theorems": [
    "Ion.Equivalence.C31_symmetric_partial",
    "Ion.Equivalence.C31_untyped_asymmetric",
    "Ion.Equivalence.C31_reflexive_partial",
    "Ion.Equivalence.C31_tuples_not_reflexive",
    "Ion.Equivalence.C31_tuples_ignore_nature",
    "Ion.Equivalence.C31_tuple_hides_annotations",
    "Ion.Equivalence.C31_transitive"
   ],
   "note": "Symmetric for all objects whose parts with Ion nature have a type that fits their class (plain objects free); reflexive for all comparable objects, plain tuples included if they hold no NaN and no null with Ion nature; transitive on loaded objects. False without an Ion type (C31_untyped_asymmetric) and for plain tuples with a NaN or a typed null, which are compared with == (C31_tuples_not_reflexive); between plain tuples Ion types and annotations do not count (C31_tuples_ignore_nature, C31_tuple_hides_annotations). Missing: NaN decimals."
  },
  {
   "property": "C32",
   "status": "partial",
   "theorems": [
    "Ion.Equivalence.C32_equals_iff",
    "Ion.Equivalence.C32_same_is_equal",
    "Ion.Equivalence.C32_equal_is_same_partial",
    "Ion.Equivalence.C32_repeated_fields",
    "Ion.Equivalence.C32_digits_beyond_microseconds",
    "Ion.Equivalence.C32_instants_truncated",
    "Ion.Equivalence.C32_plain_numbers",
    "Ion.Equivalence.C32_annotations_against_plain",
    "Ion.Equivalence.C32_symbols"
   ],
   "note": "C32_equals_iff: exact characterisation for all objects as load makes them, any depth, both modes. Against the data model: equal values are always equal; the converse without repeated fields, NaN, more than six digits of the seconds; false otherwise (C32_repeated_fields, C32_digits_beyond_microseconds). Symbols of unknown text: C32_symbols. Annotations count against plain objects too: C32_annotations_against_plain."
  },
  {
   "property": "C33",
   "status": "partial",
   "theorems": [
    "Ion.Scalars.C33_attributes_agree_partial",
    "Ion.Scalars.C33_keeps_arguments",
    "Ion.Scalars.C33_rejects",
    "Ion.Scalars.C33_long_fraction_rounded"
   ],
   "note": "Microsecond truncation proved for fractions of at most 28 digits; false beyond (C33_long_fraction_rounded). All other parts unconditional."
  },
  {
   "property": "C34",
   "status": "proved",
   "theorems": [
    "Ion.MM.C34_multimap_history",
    "Ion.MM.C34_multimap_from_dict"
   ],
   "note": "all histories; keys compared with decidable equality"
  },
  {
   "property": "C35",
   "status": "proved",
   "theorems": [
    "Ion.Text.C35_strings_round_trip"
   ],
   "note": "every string of Unicode scalar values, any chunking, read as bytes or as str; strings as part of trees are covered by C38"
  },
  {
   "property": "C36",
   "status": "partial",
   "theorems": [
    "Ion.Text.C36_symbols_round_trip_partial",
    "Ion.Text.C36_top_level_symbols_partial",
    "Ion.Text.C36_sid_text",
    "Ion.Text.C36_version_marker_text",
    "Ion.Text.C36_future_version_text"
   ],
   "note": "proved for every symbol text as value, field name and annotation, except texts `$` + digits and, at the top level, version-marker-like texts, where the statement is false (C36_sid_text, C36_version_marker_text, C36_future_version_text)"
  },
  {
   "property": "C37",
   "status": "proved",
   "theorems": [
    "Ion.Text.C37_ints_round_trip",
    "Ion.Text.C37_bools_round_trip",
    "Ion.Text.C37_nulls_round_trip",
    "Ion.Text.C37_bool_as_int"
   ],
   "note": "every int, both bools, 13 nulls; CPython's limit of 4300 digits for int/str conversion is outside the model. A bool given as INT deviates (C37_bool_as_int), which is not an int of the data model"
  },
  {
   "property": "C38",
   "status": "partial",
   "theorems": [
    "Ion.Text.C38_reads_document_str",
    "Ion.Text.C38_reads_document_bytes",
    "Ion.Text.C38_written_text_reads_back_partial",
    "Ion.Text.C38_unreadable_indent",
    "Ion.Text.C38_vertical_tab",
    "Ion.Text.C38_comment_after_field_name",
    "Ion.Text.C38_nan_payload",
    "Ion.Text.C38_date_offset_lost",
    "Ion.Text.C38_offset_seconds",
    "Ion.Text.C38_truncated_list_accepted",
    "Ion.Text.C38_field_without_value",
    "Ion.Text.C38_lone_minus",
    "Ion.Text.C38_slash_after_number",
    "Ion.Text.C38_lone_brace",
    "Ion.Text.C38_cut_operator",
    "Ion.Text.C38_comment_after_annotation",
    "Ion.Text.C38_comment_after_operator",
    "Ion.Text.C38_slash_after_comment",
    "Ion.Text.C38_operator_before_i",
    "Ion.Text.C38_number_before_operator",
    "Ion.Text.C38_marker_without_version",
    "Ion.Text.C38_empty_symbol_after_long_string",
    "Ion.Text.C38_underscore_in_exponent",
    "Ion.Text.C38_comment_at_the_end",
    "Ion.Text.C38_bytes_read_as_latin1",
    "Ion.Text.C38_blob_with_quote",
    "Ion.Text.C38_date_with_t",
    "Ion.Text.C38_impossible_date",
    "Ion.TextWriter.C38_output_printable",
    "Ion.TextWriter.C38_indent_accepted",
    "Ion.TextWriter.C38_pretty_indentation",
    "Ion.Text.C38_grammar_unambiguous"
   ],
   "note": "round trip proved for all trees, flushes, version markers, and all Ion whitespace indents, for values that text can express; the exceptions (symbol texts like $10, top-level $ion_1_0, NaN payloads, dates with offset, offsets with seconds, indents that are not Ion whitespace) are false of the code, see the negative theorems. float repr/parse is a parameter with an assumption (Faithful)"
  },
  {
   "property": "C39",
   "status": "proved",
   "theorems": [
    "Ion.Text.C39_blobs_round_trip",
    "Ion.Text.C39_clobs_round_trip"
   ],
   "note": "every byte string, for blobs (with the exact base64 text) and clobs"
  },
  {
   "property": "C40",
   "status": "proved",
   "theorems": [
    "Ion.Util.C40_iterates_code_points",
    "Ion.Util.C40_all_sequences",
    "Ion.Util.C40_python3_text"
   ],
   "note": "all code unit sequences, and Python 3 strings"
  },
  {
   "property": "C41",
   "status": "proved",
   "theorems": [
    "Ion.RawReader.C41_padding_invisible"
   ],
   "note": "padding of any size at any value position at any depth"
  },
  {
   "property": "C42",
   "status": "proved",
   "theorems": [
    "Ion.RawReader.C42_accepted_is_well_framed",
    "Ion.RawReader.C42_malformed_raises",
    "Ion.RawReader.C42_defects_raise",
    "Ion.RawReader.C42_no_marker_raises",
    "Ion.RawReader.C42_correct_is_well_framed",
    "Ion.RawReader.C42_annotated_padding"
   ],
   "note": "All documents that are not well framed (FramingSpec.lean, bodies of scalars not looked at), and separately each listed defect at any depth and after any correct values, raise through the blocking reader for all chunkings. Not Ion but accepted, and excluded by the specification: NOP padding or a version marker inside an annotation wrapper (C42_annotated_padding)."
  },
  {
   "property": "C43",
   "status": "proved",
   "theorems": [
    "Ion.RawReader.C43_events_well_nested"
   ],
   "note": "all inputs, malformed ones included, all call sequences"
  },
  {
   "property": "C44",
   "status": "proved",
   "theorems": [
    "Ion.Util.C44_materialised_once",
    "Ion.Util.C44_invoked_at_most_once"
   ],
   "note": "all histories of accesses and derivations, for arbitrary delegates; identity of objects is equality of values in the model"
  },
  {
   "property": "C45",
   "status": "proved",
   "theorems": [
    "Ion.Simple.C45_dump_starts_with_marker",
    "Ion.Simple.C45_format_detection"
   ],
   "note": "binary dumps of every object, even when dump raises; detection for every byte stream"
  },
  {
   "property": "C46",
   "status": "proved",
   "theorems": [
    "Ion.Simple.C46_type_of_class",
    "Ion.Simple.C46_documented_type",
    "Ion.Simple.C46_unsupported_rejected",
    "Ion.Simple.C46_namedtuple_is_list",
    "Ion.Simple.C46_dump_rejects"
   ],
   "note": "all classes and class hierarchies; objects of any depth (dump as a whole: C12_dump_load_partial). The documentation is wrong about named tuples (C46_namedtuple_is_list)."
  },
  {
   "property": "C47",
   "status": "proved",
   "theorems": [
    "Ion.Json.C47_json",
    "Ion.Json.C47_loaded",
    "Ion.Json.C47_decimal_overflow"
   ],
   "note": "objects as load returns them (Native), related to the data model value; decimal beyond the float range becomes Infinity in the JSON text (C47_decimal_overflow, negative)"
  },
  {
   "property": "C48",
   "status": "partial",
   "theorems": [
    "Ion.Simple.C48_load_text_document_partial"
   ],
   "note": "proved for every document of the grammar of TextSpec.lean and every division into pieces (left out of the grammar: what the reader rejects or reads wrongly, see the header of TextSpec.lean and the negative theorems C38_*); bytes must be ASCII, because the reader takes bytes for Latin-1"
  },
  {
   "property": "C49",
   "status": "partial",
   "theorems": [
    "Ion.Simple.C49_dump_load_text_partial"
   ],
   "note": "proved for all objects that stand for Ion values that text can express, all whitespace indents, all options; the exceptions (symbols with texts like $10, top-level symbols like $ion_1_0, NaN payloads, some timestamps) are false of the code, see C36_sid_text, C36_version_marker_text and the notes of C38. float repr/parse is a parameter with an assumption (Faithful)"
  },
  {
   "property": "C50",
   "status": "partial",
   "theorems": [
    "Ion.Text.C50_rejects_wrong_text_partial",
    "Ion.Text.C50_wrong_text_is_no_document"
   ],
   "note": "proved: at every place of every beginning of a text (IsAt), the mistakes listed by IsWrong raise IonException after the events of what stands before, for every division into pieces; and none of these texts is a document of the grammar. The list covers characters that start nothing, missing commas, brackets, unclosed containers, strings, clobs and their ends, blobs, numbers and timestamps, identifiers, keywords, typed nulls, infinities, annotations and field names. Missing: comments, operators in s-expressions, quotes in blobs (the code accepts some, C38_blob_with_quote), texts for which the code raises something else (C52_*_error)"
  },
  {
   "property": "C51",
   "status": "partial",
   "theorems": [
    "Ion.TextReader.C51_text_events_well_nested_partial",
    "Ion.TextReader.C51_symbol_without_field_name",
    "Ion.TextReader.C51_skip_after_sibling",
    "Ion.TextReader.C51_skip_after_sibling_misplaced",
    "Ion.TextReader.C51_skip_truncated_diverges"
   ],
   "note": "proved for every input and every history of requests, with two exceptions the code makes: a symbol in a struct may come without a field name (C51_symbol_without_field_name), and a SKIP after the end of a sibling stops at the wrong end (C51_skip_after_sibling, C51_skip_after_sibling_misplaced), so SKIP is only allowed while the last container event is a start; a SKIP over a truncated container is not answered (C51_skip_truncated_diverges)"
  },
  {
   "property": "C52",
   "status": "partial",
   "theorems": [
    "Ion.Text.C52_text_reader_answers_partial",
    "Ion.Text.C52_text_reader_answers_without_skip",
    "Ion.Text.C52_bytes_reader_answers_without_skip",
    "Ion.Text.C52_type_error",
    "Ion.Text.C52_value_error",
    "Ion.Text.C52_unicode_error",
    "Ion.Text.C52_attribute_error",
    "Ion.Text.C52_skip_hangs"
   ],
   "note": "proved: for every input and every history of requests, every request is answered by an event or one of IonException, TypeError, ValueError, UnicodeDecodeError, AttributeError, no assertion fails, and without SKIP there is always an answer. Missing, because false of the code: the other exceptions are raised for some texts (C52_type_error, C52_value_error, C52_unicode_error, C52_attribute_error), and a SKIP over a truncated list never ends (C52_skip_hangs)"
  },
  {
   "property": "C53",
   "status": "partial",
   "theorems": [
    "Ion.Text.C53_text_chunks_str_partial",
    "Ion.Text.C53_text_chunks_bytes_partial",
    "Ion.Text.C53_bytes_or_str_partial",
    "Ion.Text.C53_plain_texts",
    "Ion.Text.C53_return_after_slash",
    "Ion.Text.C53_chunks_matter",
    "Ion.Text.C53_load_str_partial",
    "Ion.Text.C53_load_bytes_partial",
    "Ion.Text.C53_load_bytes_or_str_partial",
    "Ion.Text.C53_loads_str_partial",
    "Ion.Text.C53_loads_bytes_partial"
   ],
   "note": "proved for every history of requests to the reader, and for load and loads, and every text, well formed or not, in which no slash is directly followed by a carriage return, a backslash or a high surrogate, except at the end of a block comment and at the start of a line comment (TextReader.Whole.Fine); for other texts it is false of the code: C53_return_after_slash, C53_chunks_matter"
  },
  {
   "property": "C54",
   "status": "partial",
   "theorems": [
    "Ion.Simple.C54_load_returns_whole_stream",
    "Ion.Simple.C54_wrong_text_is_not_loaded",
    "Ion.Simple.C54_truncated_list",
    "Ion.Simple.C54_truncated_table_hangs",
    "Ion.Simple.C54_truncated_table_loaded"
   ],
   "note": "proved: if load returns, the events the reader delivered up to STREAM_END are those of complete values, with nothing else, and one value is returned for each (for every file); and a text with a mistake (IsWrong) is not loaded, with or without local symbol tables before the mistake (with them, for the texts that C53 is about: Fine). Missing, because false of the code: a text that ends within the symbols of a local symbol table may be loaded as if the table were not there (C54_truncated_table_loaded); load of a text that ends within a skipped container of a symbol table does not end (C54_truncated_table_hangs)"
  },
  {
   "property": "C55",
   "status": "partial",
   "theorems": [
    "Ion.ManagedReader.C55_binary_events_well_nested",
    "Ion.ManagedReader.C55_text_events_well_nested_partial"
   ],
   "note": "proved for the binary reader for every input and history; for the text reader with the two exceptions of C51: a symbol in a struct may come without a field name, and no SKIP after the end of a sibling."
  },
  {
   "property": "C56",
   "status": "partial",
   "theorems": [
    "Ion.Text.C56_skip_is_reading_str_partial",
    "Ion.Text.C56_skip_is_reading_bytes_partial"
   ],
   "note": "proved for every text, division and history, if the last start or end of a container that was delivered is the start of the container skipped. Missing, because false of the code: after the end of a sibling SKIP goes astray (C51_skip_after_sibling); where reading says STREAM_END within the container, SKIP never answers (part of the theorem). Texts in which a slash that is not part of a comment is followed by a carriage return, a backslash or a high surrogate (not Fine) are excluded, as in C53."
  },
  {
   "property": "C57",
   "status": "proved",
   "theorems": [
    "Ion.Text.C57_text_version_refused",
    "Ion.RawReader.C57_binary_version_refused",
    "Ion.ManagedReader.C57_managed_version_refused"
   ],
   "note": "text: after every beginning of a text of the grammar (IsOpen); binary: after every correct stream; managed reader: on any reader."
  },
  {
   "property": "C58",
   "status": "proved",
   "theorems": [
    "Ion.SymbolTable.C58_equal_iff",
    "Ion.SymbolTable.C58_equal_lookups",
    "Ion.SymbolTable.C58_equal_intern"
   ],
   "note": "all tables made by the constructor and any history of intern calls; comparison with objects that are not symbol tables is not modelled"
  },
  {
   "property": "C59",
   "status": "partial",
   "theorems": [
    "Ion.Simple.C59_text_to_binary_partial",
    "Ion.Simple.C59_text_to_text_partial",
    "Ion.Simple.C59_binary_to_text_partial",
    "Ion.Simple.C59_binary_to_binary_partial",
    "Ion.Simple.C59_unknown_symbol_not_written"
   ],
   "note": "All four directions, for every text document of the grammar (C48) and every well-formed binary document (C13), any catalog. Missing because false of the code: symbols of unknown text cannot be written again (C59_unknown_symbol_not_written); decimals and timestamps beyond the limits of C05 and C08; for text, what text cannot express (C38, C36_sid_text, C36_version_marker_text). float repr/parse is a parameter with an assumption (Faithful)."
  },
  {
   "property": "C60",
   "status": "partial",
   "theorems": [
    "Ion.Simple.C60_failed_dump_binary_partial",
    "Ion.Simple.C60_failed_dump_text"
   ],
   "note": "Proved for binary=True: every failing dump, for every object, options and imports, has written exactly the version marker (the buffer invariant also gives that the end of the stream never fails after the symbol table has been written).  False of the code for text: C60_failed_dump_text shows a failing dump of a stream that leaves a loadable shorter document."
  },
  {
   "property": "C61",
   "status": "partial",
   "theorems": [
    "Ion.Simple.C61_binary_records",
    "Ion.Simple.C61_text_file_partial",
    "Ion.Simple.C61_text_records_partial",
    "Ion.Simple.C61_text_needs_separator"
   ],
   "note": "Proved for binary (any number of dumped documents, each with its own imports and options, cut in any way) and for text if every record that does not end in a bracketed value (list, s-expression, struct, string, blob or clob) is followed by whitespace; nothing has to follow the last record (C61_text_file_partial, with C61_text_records_partial for records that are all followed by whitespace).  False of the code for other text records written directly after each other: C61_text_needs_separator shows that two dumps of True are loaded as the symbol 'true$ion_1_0' and true.  The conditions on objects are those of C12 and C49."
  },
  {
   "property": "C62",
   "status": "partial",
   "theorems": [
    "Ion.EventEquality.C62_equal_iff",
    "Ion.EventEquality.C62_equivalence_partial",
    "Ion.EventEquality.C62_ne_is_not_negation",
    "Ion.EventEquality.C62_other_class_asymmetric",
    "Ion.EventEquality.C62_datetime_not_transitive"
   ],
   "note": "Proved: == is exactly sameness, and an equivalence relation, for all events whose value has the class of their type, as the readers make them (C64). False of the code: != is inherited from tuple and is not the negation of == (C62_ne_is_not_negation); with values of other classes or plain datetimes == is not symmetric or transitive (C62_other_class_asymmetric, C62_datetime_not_transitive). Non-finite decimals are left out."
  },
  {
   "property": "C63",
   "status": "proved",
   "theorems": [
    "Ion.Timestamp.C63_shorthand",
    "Ion.Timestamp.C63_every_offset",
    "Ion.Timestamp.C63_adjust_from_utc"
   ],
   "note": "Offsets of whole seconds for adjust_from_utc_fields (the readers give whole minutes)."
  },
  {
   "property": "C64",
   "status": "proved",
   "theorems": [
    "Ion.EventValues.C64_binary",
    "Ion.EventValues.C64_text",
    "Ion.EventValues.C64_managed",
    "Ion.EventValues.C64_events_comparable"
   ],
   "note": "For the readers as modelled; FloatText.parse gives a float for any text it accepts."
  },
  {
   "property": "C65",
   "status": "partial",
   "theorems": [
    "Ion.Simple.C65_every_request_is_answered",
    "Ion.Simple.C65_load_ends",
    "Ion.Simple.C65_load_of_marked_file_ends",
    "Ion.Simple.C65_load_raises_partial",
    "Ion.Simple.C65_each_occurs",
    "Ion.RawReader.C65_reader_raises",
    "Ion.RawReader.C65_skip_indexError"
   ],
   "note": "Proved: every request is answered and load of binary data ends, for all bytes and divisions (C65_every_request_is_answered, C65_load_ends); every exception is from a list of eight (C65_load_raises_partial). False of the code: that it is always IonException; the other seven occur (C65_each_occurs), and to a caller who uses SKIP the binary reader may raise IndexError too (C65_skip_indexError)."
  },
  {
   "property": "C66",
   "status": "partial",
   "theorems": [
    "Ion.Simple.C66_load_of_text_ends_partial",
    "Ion.Simple.C66_load_of_str_ends_partial",
    "Ion.Simple.C66_load_of_bytes_ends_partial",
    "Ion.Simple.C66_exceptions_occur",
    "Ion.Simple.C66_open_comment_hangs",
    "Ion.Simple.C66_truncated_table_hangs"
   ],
   "note": "Proved for every file of str or bytes, every division, every catalog filled by register: load returns, raises one of nine listed exceptions, or the text reader itself does not come to an end (it asks for data for ever after the end of all data, or does not answer a SKIP). Missing, because false of the code: it may hang (C66_open_comment_hangs: '''a'''/* ; C66_truncated_table_hangs) and raises other exceptions than IonException (C66_exceptions_occur). float() is assumed to raise only ValueError."
  },
  {
   "property": "C67",
   "status": "proved",
   "theorems": [
    "Ion.Simple.C67_same_values_same_bytes",
    "Ion.Simple.C67_same_values_same_text",
    "Ion.Simple.C67_loaded_same_output",
    "Ion.Simple.C67_rewriting_is_stable",
    "Ion.Simple.C67_reformatting_is_stable",
    "Ion.Simple.C67_through_text",
    "Ion.Simple.C67_dump_loaded_again",
    "Ion.Simple.C67_field_order_is_written",
    "Ion.Simple.C67_repeated_fields_are_grouped"
   ],
   "note": "For objects whose symbols have a text (or are $0) and whose timestamps come from constructors or load. Negative, and outside the claim: the order of fields of a struct is written (C67_field_order_is_written); a dictionary whose repeated fields are not adjacent is regrouped by load (C67_repeated_fields_are_grouped), so the first of the outputs may differ, not later ones (C67_rewriting_is_stable)."
  },
  {
   "property": "C68",
   "status": "partial",
   "theorems": [
    "Ion.Simple.C68_text",
    "Ion.Simple.C68_binary_partial",
    "Ion.Simple.C68_binary_exactly",
    "Ion.Simple.C68_load_partial",
    "Ion.Simple.C68_dump_again",
    "Ion.Simple.C68_date_with_offset"
   ],
   "note": "Text: for every text (C68_text).  Binary: exactly when every timestamp is cut to its precision (C68_binary_exactly), which only a date with an offset can fail to be (C68_binary_partial, C68_date_with_offset); the code accepts such dates, which are not Ion, and shifts them."
  },
  {
   "property": "C69",
   "status": "proved",
   "theorems": [
    "Ion.Declared.C69_enumeration_declared",
    "Ion.Declared.C69_lookup",
    "Ion.Declared.C69_iteration",
    "Ion.Declared.C69_iteration_by_number",
    "Ion.Declared.C69_attribute",
    "Ion.Declared.C69_attribute_unknown",
    "Ion.Declared.C69_same_number"
   ],
   "note": "Direct subclasses of Enum. Of two members with the same number only the last is found by number and by iterating (C69_same_number). Members are ints, so that members of different enumerations with the same number are == (not claimed)."
  },
  {
   "property": "C70",
   "status": "proved",
   "theorems": [
    "Ion.Declared.C70_record_declared",
    "Ion.Declared.C70_record_fields",
    "Ion.Declared.C70_fields_determined"
   ],
   "note": "Names valid for namedtuple are a parameter of the model."
  },
  {
   "property": "C71",
   "status": "partial",
   "theorems": [
    "Ion.Simple.C71_cut_document",
    "Ion.Simple.C71_cut_value",
    "Ion.Simple.C71_cut_records",
    "Ion.Simple.C71_one_line",
    "Ion.Simple.C71_complete_lines_partial",
    "Ion.Simple.C71_torn_line_is_loaded"
   ],
   "note": "Proved for binary: for every document and for every number of dumped records before it, cut anywhere, load raises or returns objects that mean the first values, and it raises if the cut is inside a value; for text: dump without an indent writes printable ASCII only, whatever the object, so that the complete lines of a cut file are the first records, and are loaded to their values (conditions on objects as for C12 and C49). False of the code for text that is loaded with its torn last line: C71_torn_line_is_loaded shows that `$ion_1_0 tru`, left of dump(True), is loaded as the symbol tru."
  },
  {
   "property": "C72",
   "status": "partial",
   "theorems": [
    "Ion.Simple.C72_scalar",
    "Ion.Simple.C72_none",
    "Ion.Simple.C72_sequence",
    "Ion.Simple.C72_struct",
    "Ion.Simple.C72_copy_partial",
    "Ion.Simple.C72_copy_equal_partial",
    "Ion.Simple.C72_repeated_fields_lost",
    "Ion.Simple.C72_again",
    "Ion.Simple.C72_same_output"
   ],
   "note": "Proved for scalars of every class (tokens and timestamps made by their constructors), None, lists and S-expressions, and structs, of which the last value of each field name is kept at the place of the first one, so all fields if the names differ; wrapping again; no change of the output of dump (plain values, dictionaries without repeated keys; symbols and timestamps as for C67); copies. False of the code for structs with a repeated field name, as load returns them: C72_repeated_fields_lost shows that _copy and from_value keep the last of the values only."
  },
  {
   "property": "C73",
   "status": "partial",
   "theorems": [
    "Ion.Simple.C73_binary_to_text_partial",
    "Ion.Simple.C73_binary_to_binary_partial",
    "Ion.Simple.C73_unknown_symbol_becomes_another",
    "Ion.Simple.C73_text_to_text_partial",
    "Ion.Simple.C73_text_to_binary_partial"
   ],
   "note": "Proved for binary documents whose symbols are defined and for text documents of the grammar (Denotes), if all symbols have texts and the target format can express the values (InText, InBinary of C59): text output, compact or with any indent, and binary output with any shared imports. The events of text are those that the blocking reader returns. Missing: the forms of text that the grammar leaves out (those missing in C48). False of the code for symbols with unknown text: C73_unknown_symbol_becomes_another shows a document with the symbols a and $10 (unknown) whose events are written as a and a."
  }
 ]
}