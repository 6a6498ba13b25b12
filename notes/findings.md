# Working notes: code facts / suspected defects found by reading /repo (used for model & negative theorems)

- reader_binary._parse_var_int_components L138: `ch == ''` never true on py3; under-run -> `ord(b'')` TypeError (not IonException).
- writer_binary_raw._write_timestamp_fractional_seconds L173: scaleb under DEFAULT context (prec 28, half-even) -> fractions with >28 digits are rounded. (_serialize_decimal uses localcontext prec=len(digits) -> exact.)
- core.Timestamp.__new__ L500 `int(fractional_seconds * 10**6)` also default context prec 28: 0.999..(>=29 nines) -> rounds to 1000000 -> datetime ctor ValueError.
- _serialize_timestamp L253: for precision YEAR/MONTH/DAY with nonzero offset, `dt -= offset` shifts the date but only date part is written => round trip fails (2000T +01:00 -> 1999). offset minutes = floor(total_seconds/60) -> sub-minute offset lost. Overflow at year 1 / 9999.
- writer_binary.intern_symbols L171 `if field_name:`: plain dict with '' key => u'' falsy => not interned => raw writer `u''.sid` AttributeError. (ion-nature values get SymbolToken, truthy, ok). Plain value with None key: field None -> AttributeError also.
- write_symbol with SymbolToken(None, sid): key=sid; get(sid) None if sid>len -> AssertionError. sid=0 -> SYMBOL_ZERO.
- symbols.SymbolTable.get L284: for text key `default` is ignored (returns None).
- reader_managed L170 `if desc.name is not None or desc.name == TEXT_ION`: importing "$ion" explicitly is NOT ignored (spec says ignore) -> placeholder/shift of SIDs. LST append drops tokens whose location.name == '$ion' from a *local* import -> append after import of shared table named "$ion" shifts SIDs.
- writer_text._symbol_needs_quotes: `$10` matches identifier regex -> unquoted -> reader reads as SID 10. Symbol text `$<digits>` does not round trip in text. Also top-level `$ion_1_0` symbol -> swallowed.
- equivalence._structs_eq: Multimap duplicates compared with any(): {a:1,a:1,a:2} == {a:1,a:2,a:2}. Not multiset equality. ion_equals not transitive (plain 'x' ~ STRING 'x', ~ SYMBOL 'x').
- core.Multimap: Mapping.__eq__ = dict(items) drops dups; MultimapValue.__setitem__ inserts.
- blocking_reader at EOF w/ INCOMPLETE sends NEXT: binary trampoline raises TypeError 'Reader expected data' (allow_flush False) => truncation is always an error.
- managed writer STREAM_END inside container: LST bytes are emitted before TypeError.
- reader_binary _parse_decimal uses Emax default 999999 -> exponents beyond => decimal.Overflow / underflow. prec=len(str(coefficient)) includes '-'.
- BufferTree.drain is lazy; reset only after full consumption. add_leaf puts header under leftmost leaf.
- _nop_pad_handler: NOP pad allowed in struct only with field SID 0. Annotated NOP? annotation wrapper containing NOP: ctx.annotations set; nop handler doesn't use event_transition -> goes to whence without check. (check in model!)
- IVM handler: depth != 0 -> error; ok at top. IVM inside annotation at depth 0?: annotation value start 0xE0 -> _ivm_handler ctx.depth==0 -> accepted (annotated IVM!) swallows annotations; limit not checked.
- `_var_uint_field_handler` only checks the container limit when the queue is empty (lazy), so a VarUInt may overrun its container when bytes are buffered; events before the eventual IonException can depend on chunking (`B1 8E | 80`).
- `_container_start_handler` never checks child limit <= parent limit: nested container overrunning its parent emits events, then the parent (position > limit) raises on next read. With SKIP when position > limit: negative remaining -> `queue.skip(negative)` moves position back and *increases* size (corrupt queue) -> CONTAINER_END with no error; later IndexError on empty deque.
- ctx.remaining is Inf whenever depth == 0 (also inside top-level annotation wrappers); wrapper length enforced only by event_transition / container_start checks.
- `$ion_symbol_table::{imports: null.symbol}` -> `ctx.resolve(None)` AttributeError in `_local_symbol_table_handler`.
- import descriptor `version: null.int` -> catalog.resolve TypeError; version 0 -> ValueError.
- Document import of a table named "$ion" creates a placeholder whose tokens have location "$ion"; a later LST append drops them and shifts local SIDs (C23_append_shifts_after_ion_import).
- `_parse_decimal` uses default Emax/Emin 999999: overflow raises decimal.Overflow, exponents below Etiny are silently rounded; `_serialize_decimal` scaleb raises InvalidOperation if |exponent| > 2*(999999+prec).
- `_nop_pad_handler` error path formats `%d` with a SymbolToken: TypeError rather than IonException.

* `BufferQueue.unread` of an element that was not the last one read moves the offset back before it notices the mismatch,
  so after the `ValueError` the queue has gained an element (`C30_wrong_unread_corrupts`).
* `Timestamp(..., fractional_seconds=f)`: `int(f * 10**6)` is computed in the default decimal context (28 digits), so for
  fractions of more than 28 digits `microsecond` may be rounded up instead of truncated (`C33_long_fraction_rounded`).
* Decimals whose exponent underflows the decimal context are silently replaced by zero when read
  (`C05_underflow_alters_value`).
* A timestamp of date precision with a non-zero offset is written with its UTC date and read back with another date
  (`C08_date_with_offset_altered`); fractional seconds of more than 28 digits are rounded when written
  (`C08_long_fraction_altered`).

## Raw and managed binary writer
- A container annotation without symbol ID is accepted at CONTAINER_START and only rejected at the matching CONTAINER_END.
- A BOOL event accepts any Python value (truthiness), INT accepts bool, CLOB/BLOB accept the empty str (C29_lenient_cases).
- INCOMPLETE as the very first event passes the trampoline check and is rejected by the co-routine instead.
- Managed writer: STREAM_END inside a container raises only after the local symbol table has been output.
- Binary writer: a struct field whose name is the empty text is rejected: the name is falsy, so it is not interned, and the
  raw writer then reads `.sid` of a `str` (AttributeError). `dumps({"": 1}, binary=True)` therefore fails (C29 `noFieldName`).

## Raw binary reader
- Chunk dependence for malformed input: `B5 E3 81 84 0E 80` is accepted unsplit and raises when split after `0E`
  (`C24_malformed_depends_on_chunks`): `_var_uint_field_handler` checks the limit only when it must wait for data.
- An annotation wrapper around a NOP pad, and around a version marker at the top level, is accepted (annotations dropped).
- `5E 80` (decimal, length nibble 14, length 0) raises TypeError; `31 00` (negative zero int) is accepted as 0.
- A NOP pad with a non-zero field name raises TypeError (message formatting) instead of IonException; so does a truncated
  VarUInt among the annotation symbol IDs.
- SKIP in a container that one of its children has overrun moves the position backwards and corrupts the queue.
- The event of a container that overruns its parent is delivered; the error comes only when the parent is continued.

## Managed reader
- Elements of a local symbol table's `symbols` list that are not strings are dropped instead of occupying an ID with unknown
  text, so all later IDs shift (`C21_non_string_symbols_shift_ids`).
- A top-level symbol without annotations whose ID is out of range raises at `send`; elsewhere the exception comes only when
  the attribute of the event is read.

## Binary round trip
- A user value that is the unannotated symbol `$ion_1_0`, or a top-level struct whose first annotation is `$ion_symbol_table`,
  is written as it is and then read as a system value: it disappears (`C12_marker_symbol_lost`, `C12_annotated_struct_lost`).
- The writer emits a symbol table with an empty `symbols` list whenever a value uses only system symbols.

## dump and load
- A named tuple is written as a list; the documentation of `dump` says struct (`C46_namedtuple_is_list`).
- With `sequence_as_stream`, a symbol (a named tuple) is written as three values: text, SID and location
  (`C13_symbol_written_as_stream`).
- `IonPyInt(5)` etc. constructed directly have `ion_type = None`, and `dump` raises AttributeError.
- A dictionary comes back from `load` with the values of a repeated key grouped (the order of fields changes, which the data
  model allows).

## Equality
- `ion_equals(IonPyInt(1), IonPyFloat(1.0))` is True and False in the other order, when made by their constructors, without
  an Ion type (`C31_untyped_asymmetric`).
- `ion_equals` compares two plain tuples with `==`, unlike lists: annotations and Ion types inside do not count, a tuple with a NaN
  or an `IonPyNull` does not equal a copy of itself (`C31_tuples_not_reflexive`, `C31_tuple_hides_annotations`).
- `{a:1,a:1,a:2}` equals `{a:1,a:2,a:2}` (`C32_repeated_fields`): values of a repeated field are compared with `any`.
- Precision of timestamps beyond six digits does not count (`C32_digits_beyond_microseconds`); instants are compared to the
  microsecond (`C32_instants_truncated`).
- Plain `True` equals plain `1`; an Ion int 1 equals a plain 1.0 (`C32_plain_numbers`).

## JSON
- A decimal beyond the range of a double becomes `Infinity`, which is not JSON (`C47_decimal_overflow`).

## Malformed binary
- NOP padding as the value of an annotation wrapper is accepted and the length of the wrapper is then not checked; so is an
  annotated version marker (`C42_annotated_padding`).

## Text
- A symbol whose text is `$` and digits is written without quotes and read as a symbol ID (`C36_sid_text`).
- At the top level, the symbol `$ion_1_0` is written without quotes and read as a version marker; `$ion_2_0` makes the text
  unreadable (`C36_version_marker_text`, `C36_future_version_text`).
- `IonType.INT` with `True` is written as `True`, a symbol (`C37_bool_as_int`). Non-finite decimals are written as
  `Infinityd0`, `NaNd0`.
- The indent may be any Python whitespace, but only Ion whitespace can be read back (`C38_unreadable_indent`).
- A date with a known offset loses it (`C38_date_offset_lost`); an offset with seconds cannot be read (`C38_offset_seconds`);
  NaN payloads are lost (`C38_nan_payload`).
- The reader rejects a vertical tab or form feed right after a number or symbol (`C38_vertical_tab`), and values after a
  comment after a field name or annotation (`C38_comment_after_field_name`).
- The reader accepts a text that ends within a container after a scalar (`C38_truncated_list_accepted`), and a field without
  a value (`C38_field_without_value`). A lone `-`, `{`, `(*` or `123/` raises TypeError (`C38_lone_minus`).
- Bytes that are not ASCII are read as Latin-1, not as UTF-8.
- `loads("'''abc''' /*")` does not terminate; SKIP in a truncated `[1` does not either.
- A comment right after an operator is read as operators and symbols: `(+/*c*/1)` (`C38_comment_after_operator`); `(+i)` and
  `(1+2)` are rejected (`C38_operator_before_i`, `C38_number_before_operator`), `(a+b)` is read.
- `1d1_0` is accepted (`C38_underscore_in_exponent`); `a::b //x` at the end of a text is rejected (`C38_comment_at_the_end`).
- `'''a''' ''::5` raises AttributeError (`C38_empty_symbol_after_long_string`).
- `{{'abcd}}` and `2020-13-01` are delivered as events whose value raises (`C38_blob_with_quote`, `C38_impossible_date`).
- `2007-01T02` is read as 2007-01-02, and `2007T01T02T03:04Z` as a time (`C38_date_with_t`).
- A symbol in a struct may come without a field name: `{a,b:1}` is read (`C51_symbol_without_field_name`).
- SKIP after the end of a sibling stops at the wrong end (`C51_skip_after_sibling`); over a truncated container it never answers
  (`C51_skip_truncated_diverges`).
- Malformed text may raise TypeError (`-`, `(-`, `123/`, `{` then the end), ValueError (lone surrogates, `"\uDC00"`),
  UnicodeDecodeError (`"\U00110000"`) or AttributeError instead of IonException (`C52_*_error`); no assertion fails.
- `{null\v:1}` is accepted with the field name `null`; `{{= abc}}` and `{{''}}` are delivered as blobs whose value raises.
- The text writer ignores field names outside structs.
- `('' /` CR ` a)`: within an s-expression, after a quoted symbol, the slash handler gives a normalised line feed back to the queue where a carriage return was read:
  `ValueError` when the text comes in one piece, accepted when a piece ends after the carriage return (`C53_return_after_slash`).
- `load` of `[1` raises StopIteration (`C54_truncated_list`), of `$ion_symbol_table::{a:[1` it never ends (`C54_truncated_table_hangs`).
- `load` of `1 $ion_symbol_table::{symbols:[1,2` returns `[1]`: the truncated symbol table is silently dropped (`C54_truncated_table_loaded`).
- `(1 /*c*/ /2)` reads as `(1 /)`: after a comment in an s-expression, an operator that begins with a slash keeps the comment's stale
  "self-delimiting" flag, and the character after the operator is silently dropped (`C38_slash_after_comment`); `(/**/ /)` loses its closing bracket.

- `dump(..., binary=False)` writes text as it is produced: if a later value cannot be written, the file holds a well-formed shorter document (`dump([True, object()], fp, binary=False, sequence_as_stream=True)` raises `TypeError` and leaves `$ion_1_0 true`).  Binary output is buffered and leaves the version marker only (C60).

- `dump(..., binary=False)` writes no separator at its end: two dumps to the same file run into each other. `dump(True, fp, binary=False)` twice gives `$ion_1_0 true$ion_1_0 true`, which `load` takes for the symbol `true$ion_1_0` and `true` (C61).  Binary documents can be appended, and so can text records whose last value is a list, s-expression, struct, string, blob or clob (C61_text_file_partial).

- `IonEvent` defines `__eq__` but inherits `__ne__` from `tuple`: two events of NaN are `==` and `!=`, two timestamps of the same instant and different precision are neither (`C62_ne_is_not_negation`).

- `load` of wrong binary data may raise `TypeError`, `ValueError`, `AttributeError`, `OverflowError`, `decimal` errors and `UnicodeDecodeError` instead of `IonException` (`C65_each_occurs` has a document of a few bytes for each); a file that ends within a value raises `TypeError`.
- Binary `SKIP` after an inner container that reaches beyond the end of its parent: the number of bytes to skip is negative, `BufferQueue.skip` moves the position back and counts bytes that are not there; the next request raises `IndexError` (`C65_skip_indexError`).
- `load` of `'''a'''/*` (after a long string, a comment that is not closed) never ends: the reader answers "incomplete" and can be flushed for ever (`C66_open_comment_hangs`); `load` of wrong text may raise `TypeError`, `ValueError`, `AttributeError`, `UnicodeDecodeError` and `StopIteration` (`C66_exceptions_occur`).
- Binary data `63 81 0F D0` (the year 2000 with the offset +00:01, which is not Ion) is accepted and loaded as `2000-01-01T00:01+00:01` with the precision YEAR: the hidden minute is lost when it is dumped (C68_date_with_offset).
- A text file that was cut off within its last record may be loaded without an exception, with another value in place of the last one: of `dump(True, fp, binary=False)`, `$ion_1_0 tru` is loaded as the
  symbol `tru` (`C71_torn_line_is_loaded`).  With one line for each record, everything up to the last line feed is safe (`C71_complete_lines_partial`).
- A binary file that was cut within a value always raises, but the exception may be `TypeError` (`E0 01 00 EA 21 01 21`), not `IonException`.
- `IonPyDict.from_value` and `_copy` of a struct with a repeated field name, as `load` returns it, silently keep only the last value of the name, because `Multimap.__init__` sets each item instead of
  adding it (`C72_repeated_fields_lost`).
- Events of a reader that are sent to a binary writer: a symbol with unknown text is written with the symbol ID of the source, which in the output is the ID of another symbol (`C73_unknown_symbol_becomes_another`).
