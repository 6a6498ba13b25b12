import Verif.TextWriter
import Verif.BufferQueue
import Verif.RawReader
/-!
# The text reader

Models `amazon/ion/reader_text.py` (all of it), `_next_code_point` of `amazon/ion/util.py:231-292` as the reader uses it, and
`reader_trampoline` of `amazon/ion/reader.py:312-369` with `allow_flush=True`.

The generators of the module are defunctionalised.  A suspended handler of a token is a value of `H`; creating a handler
runs it up to its first `yield`, so that each handler has a function that creates it (which may raise) and a case in
`handle` for the character it is sent.  The generator `_container_handler` is the state `St`; the generators of the
enclosing containers are all suspended at the same place (lines 2091-2094, waiting for the end of an inner container), and only
the container's type and the flag `is_field_name` of each matter (`Frame`).

What a handler or the container generator does until it hands over is an action `Act`: a tree of reads and unreads that
ends in an event, an exception, or the next state.  A read waits for data if the queue is empty.

Characters are numbers: bytes, or code points if the input is unicode text.  `EOF` stands for the end-of-file marker
`reader.py:114 _EOF`, an object that is not a number: comparing it with `<` or passing it to `chr` or `unread` raises
`TypeError`.

Simplifications: a `float` is parsed by the parameter `FloatText`; error messages are left out (but not the exceptions
that arise while they are put together); positions are left out except in the queue; a low surrogate escape after an
eight-digit escape of a high surrogate, and a raw high surrogate after an escaped one, are treated as if no further data
was buffered.
-/
namespace Ion.TextReader
open Ion

/-- The end-of-file marker: not a character. -/
def EOF : Nat := 0x110000

/-- A character sent to a handler: `CodePoint` (`util.py:222-228`) if `esc`; `nl`: an escaped newline, `char == u''`. -/
structure Ch where
  code : Nat
  esc : Bool := false
  nl : Bool := false
  deriving DecidableEq, Repr

/-! ## Character classes, `reader_text.py:97-157` -/

/-- `_WHITESPACE_NOT_NL` -/
def isWsNotNl (c : Nat) : Bool := c = 32 || c = 9 || c = 11 || c = 12
/-- `_NEWLINES` -/
def isNewline (c : Nat) : Bool := c = 13 || c = 10
/-- `_WHITESPACE` -/
def isWs (c : Nat) : Bool := isWsNotNl c || isNewline c
/-- `_VALUE_TERMINATORS` -/
def isTerm (c : Nat) : Bool :=
  c = 123 || c = 125 || c = 91 || c = 93 || c = 40 || c = 41 || c = 44 || c = 34 || c = 39 || c = 32 || c = 9 || c = 10 ||
    c = 13 || c = 47
/-- `_SYMBOL_TOKEN_TERMINATORS` -/
def isSymTerm (c : Nat) : Bool := isWs c || c = 47 || c = 58
/-- `_DIGITS` -/
def isDigit (c : Nat) : Bool := 48 ≤ c && c ≤ 57
/-- `_HEX_DIGITS` -/
def isHex (c : Nat) : Bool := isDigit c || (97 ≤ c && c ≤ 102) || (65 ≤ c && c ≤ 70)
/-- `_LETTERS` -/
def isLetter (c : Nat) : Bool := (97 ≤ c && c ≤ 122) || (65 ≤ c && c ≤ 90)
/-- `_BASE64_DIGITS` -/
def isB64 (c : Nat) : Bool := isLetter c || isDigit c || c = 43 || c = 47
/-- `_IDENTIFIER_STARTS` -/
def isIdStart (c : Nat) : Bool := isLetter c || c = 95
/-- `_IDENTIFIER_CHARACTERS` -/
def isIdChar (c : Nat) : Bool := isIdStart c || isDigit c || c = 36
/-- `_OPERATORS` -/
def isOp (c : Nat) : Bool :=
  c = 33 || c = 35 || c = 37 || c = 38 || c = 42 || c = 43 || c = 45 || c = 46 || c = 47 || c = 59 || c = 60 || c = 61 ||
    c = 62 || c = 63 || c = 64 || c = 94 || c = 96 || c = 124 || c = 126
/-- `_SIGN` -/
def isSign (c : Nat) : Bool := c = 43 || c = 45
/-- `_DECIMAL_EXPS` -/
def isDecExp (c : Nat) : Bool := c = 68 || c = 100
/-- `_FLOAT_EXPS` -/
def isFloatExp (c : Nat) : Bool := c = 69 || c = 101
/-- `reader_text.py:177-178 _ends_value` -/
def endsValue (c : Nat) : Bool := isTerm c || c = EOF

/-- `_INF_SUFFIX`, `reader_text.py:165` -/
def infSuffix : List Nat := [105, 110, 102]
/-- `_IVM_PREFIX`, `reader_text.py:166` -/
def ivmPrefix : List Nat := [36, 105, 111, 110, 95]

/-! ## Contexts -/

/-- A pending symbol or the value of a symbol token: a `CodePointArray`, a `SymbolToken`, an `_IVMToken`
(`reader_text.py:1425-1442`). -/
inductive Tok where
  | text (t : Text)
  | sym (k : SymbolToken)
  | ivm (k : SymbolToken)
  deriving DecidableEq, Repr

/-- `reader_text.py:280-299 _as_symbol(value, is_symbol_value=False)`. -/
def Tok.regular : Tok → SymbolToken
  | .text t => ⟨some t, none, none⟩
  | .sym k => k
  | .ivm k => k

/-- `reader_text.py:302-344 _HandlerContext` of a child value, its mutable part; `value` is a `CodePointArray` if `isText`,
otherwise a `bytearray`.  Container, depth and `whence` are those of the container generator. -/
structure Ctx where
  fieldName : Option SymbolToken := none
  annotations : List SymbolToken := []
  value : List Nat := []
  isText : Bool := false
  ionType : Option IonType := none
  pending : Option Tok := none
  quoted : Bool := false
  lineComment : Bool := false
  selfDelim : Bool := false
  composite : Bool := false
  deriving DecidableEq, Repr

/-- `reader_text.py:388-398 set_unicode`. -/
def Ctx.setUnicode (x : Ctx) (quoted : Bool) : Except PyErr Ctx :=
  if x.isText then (if x.quoted = quoted then .ok x else .error .assertionError)
  else .ok { x with isText := true, quoted := quoted, lineComment := false }

/-- `reader_text.py:400-404 set_quoted_text`. -/
def Ctx.setQuoted (x : Ctx) (quoted : Bool) : Ctx := { x with quoted := quoted, lineComment := false }

/-- `reader_text.py:474-480 set_ion_type`. -/
def Ctx.setType (x : Ctx) (ty : Option IonType) : Ctx :=
  if x.ionType = ty then x else { x with ionType := ty, lineComment := false }

/-- `reader_text.py:506-516 set_pending_symbol`. -/
def Ctx.setPending (x : Ctx) (t : Tok) : Ctx :=
  { x with value := [], isText := false, pending := some t, lineComment := false }

/-- `reader_text.py:482-493 set_annotation`. -/
def Ctx.setAnnotation (x : Ctx) : Except PyErr Ctx :=
  match x.pending with
  | none => .error .assertionError
  | some t =>
    if x.value ≠ [] then .error .assertionError
    else .ok { x with annotations := x.annotations ++ [t.regular], ionType := none, pending := none, quoted := false, lineComment := false, selfDelim := false }

/-- `reader_text.py:495-504 set_field_name`. -/
def Ctx.setFieldName (x : Ctx) : Except PyErr Ctx :=
  match x.pending with
  | none => .error .assertionError
  | some t =>
    if x.value ≠ [] then .error .assertionError
    else .ok { x with fieldName := some t.regular, pending := none, quoted := false, lineComment := false, selfDelim := false }

/-- `reader_text.py:443-453 set_empty_symbol`. -/
def Ctx.setEmptySymbol (x : Ctx) : Ctx :=
  ({ x with fieldName := none, annotations := [], ionType := none } : Ctx).setPending (.text [])

/-- `val.append(c)`. -/
def Ctx.push (x : Ctx) (c : Nat) : Ctx := { x with value := x.value ++ [c] }

/-- `reader_text.py:346-363 event_transition` for values other than symbols. -/
def Ctx.event (x : Ctx) (depth : Nat) (ty : Option IonType) (v : Except PyErr (Option PyVal)) : IonEvent :=
  { eventType := .scalar, ionType := ty, value := v, fieldName := x.fieldName.map .tok, annotations := x.annotations.map .tok, depth := some depth }

/-- `reader_text.py:346-363 event_transition` for a symbol. -/
def Ctx.symbolEvent (x : Ctx) (depth : Nat) (t : Tok) : Except PyErr IonEvent :=
  match t with
  | .ivm k =>
    if x.annotations = [] ∧ depth = 0 then
      if k.text = some TEXT_ION_1_0 then .ok ION_VERSION_MARKER_EVENT else .error .ionException
    else .error .assertionError
  | t => .ok (x.event depth (some .symbol) (.ok (some (.sym t.regular))))

/-! ## Parsing of numbers -/

/-- Value of decimal digits. -/
def digitsVal (l : List Nat) : Nat := l.foldl (fun a c => 10 * a + (c - 48)) 0

/-- `int(...)` of an optional minus sign and digits, `reader_text.py:577`. -/
def parseInt (l : List Nat) : Except PyErr Int :=
  match l with
  | 45 :: ds => if ds ≠ [] ∧ ds.all isDigit then .ok (-(digitsVal ds : Int)) else .error .valueError
  | ds => if ds ≠ [] ∧ ds.all isDigit then .ok (digitsVal ds) else .error .valueError

/-- Value of a hexadecimal digit. -/
def hexVal (c : Nat) : Nat := if c ≤ 57 then c - 48 else if c ≤ 70 then c - 55 else c - 87

/-- `int(..., base)` of digits with the prefix `0x` or `0b`, `reader_text.py:578-579`. -/
def parseRadix (base : Nat) (l : List Nat) : Except PyErr Int :=
  match l with
  | 45 :: 48 :: _ :: ds => if ds = [] then .error .valueError else .ok (-(ds.foldl (fun a c => base * a + hexVal c) 0 : Nat))
  | 48 :: _ :: ds => if ds = [] then .error .valueError else .ok (ds.foldl (fun a c => base * a + hexVal c) 0 : Nat)
  | _ => .error .valueError

/-- `Decimal(...)` of a coefficient with an optional point and an optional exponent after `e`, without sign. -/
def parseDecimalAbs (sign : Bool) (l : List Nat) : Except PyErr Dec :=
  let mant := l.takeWhile (· ≠ 101)
  let int := mant.takeWhile (· ≠ 46)
  let frac := (mant.dropWhile (· ≠ 46)).drop 1
  if (int ++ frac) ≠ [] ∧ (int ++ frac).all isDigit then
    let d (e : Int) : Dec := ⟨sign, digitsVal (int ++ frac), e - frac.length⟩
    match l.dropWhile (· ≠ 101) with
    | [] => .ok (d 0)
    | _ :: 43 :: ds => if ds ≠ [] ∧ ds.all isDigit then .ok (d (digitsVal ds)) else .error .decimalError
    | _ :: ds => match parseInt ds with
      | .ok e => .ok (d e)
      | .error _ => .error .decimalError
  else .error .decimalError

/-- `Decimal(...)` of such a text, `reader_text.py:581`. -/
def parseDecimal (l : List Nat) : Except PyErr Dec :=
  match l with
  | 45 :: ds => parseDecimalAbs true ds
  | ds => parseDecimalAbs false ds

/-- Value of a Base64 digit. -/
def b64Val (c : Nat) : Option Nat :=
  if 65 ≤ c ∧ c ≤ 90 then some (c - 65) else if 97 ≤ c ∧ c ≤ 122 then some (c - 71)
  else if 48 ≤ c ∧ c ≤ 57 then some (c + 4) else if c = 43 then some 62 else if c = 47 then some 63 else none

/-- The loop of `binascii.a2b_base64`: position in the group of four, padding seen, bits left over. -/
def b64Loop : List Nat → Nat → Nat → Nat → Except PyErr (List Nat)
  | [], quad, _, _ => if quad = 0 then .ok [] else .error .valueError
  | c :: cs, quad, pads, left =>
    if c = 61 then
      if quad ≥ 2 then (if quad + pads + 1 ≥ 4 then .ok [] else b64Loop cs quad (pads + 1) left)
      else b64Loop cs quad pads left
    else match b64Val c with
      | none => b64Loop cs quad pads left
      | some v =>
        if quad = 0 then b64Loop cs 1 0 v
        else if quad = 1 then (b64Loop cs 2 0 (v % 16)).map ((left * 4 + v / 16) :: ·)
        else if quad = 2 then (b64Loop cs 3 0 (v % 4)).map ((left * 16 + v / 4) :: ·)
        else (b64Loop cs 0 0 0).map ((left * 64 + v) :: ·)

/-- `base64.b64decode`. -/
def b64decode (l : List Nat) : Except PyErr (List Nat) := b64Loop l 0 0 0

/-- `reader_text.py:1654-1662 _parse_lob`; `b64decode` of a `CodePointArray` raises `TypeError`. -/
def parseLob (ty : IonType) (x : Ctx) : Except PyErr (Option PyVal) :=
  if ty = .clob then
    if x.value.all (· < 256) then .ok (some (.bytes (toBytes x.value))) else .error .valueError
  else if x.isText then .error .typeError
  else match b64decode x.value with
    | .error err => .error err
    | .ok l => .ok (some (.bytes (toBytes l)))

/-- `reader_text.py:829-857 _TimestampState` as a number and `_TimestampTokens`, without the year. -/
structure TsTokens where
  month : Option (List Nat) := none
  day : Option (List Nat) := none
  hour : Option (List Nat) := none
  minute : Option (List Nat) := none
  second : Option (List Nat) := none
  fraction : Option (List Nat) := none
  offHour : Option (List Nat) := none
  offMinute : Option (List Nat) := none
  deriving DecidableEq, Repr

/-- `tokens.transition(state)` resp. `val.append(c)`: a field is changed. -/
def TsTokens.upd (t : TsTokens) (state : Nat) (f : Option (List Nat) → Option (List Nat)) : TsTokens :=
  match state with
  | 1 => { t with month := f t.month }
  | 2 => { t with day := f t.day }
  | 3 => { t with hour := f t.hour }
  | 4 => { t with minute := f t.minute }
  | 5 => { t with second := f t.second }
  | 6 => { t with fraction := f t.fraction }
  | 7 => { t with offHour := f t.offHour }
  | _ => { t with offMinute := f t.offMinute }

/-- `int(token)` or a default. -/
def intOr (t : Option (List Nat)) (default : Nat) : Except PyErr Nat :=
  match t with
  | none => .ok default
  | some l => match parseInt l with
    | .error err => .error err
    | .ok i => .ok i.toNat

/-- `reader_text.py:874-887` with `core.py:574-590`: the offset. -/
def parseOffset (t : TsTokens) : Except PyErr (Option Int) :=
  match t.offHour with
  | none => if t.offMinute.isSome then .error .assertionError else .ok none
  | some h => match t.offMinute with
    | none => .error .assertionError
    | some m => match parseInt h, parseInt m with
      | .error err, _ => .error err
      | _, .error err => .error err
      | .ok h', .ok m' =>
        let neg : Bool := 45 ∈ h
        let m' : Int := if neg then -m' else m'
        if neg && h' = 0 && m' = 0 then .ok none
        else if h' < -23 ∨ h' > 23 then .error .valueError
        else if m' < -59 ∨ m' > 59 then .error .valueError
        else match offsetTZInfo (h' * 60 * minuteMicros + m' * minuteMicros) with
          | .error err => .error err
          | .ok d => .ok (some d)

/-- `reader_text.py:926-928`: the fraction, `Decimal(int(fraction)).scaleb(-len(fraction))` in the default context. -/
def parseFraction (t : TsTokens) : Except PyErr (Option Dec) :=
  match t.second, t.fraction with
  | some _, some f => match parseInt f with
    | .error err => .error err
    | .ok i => match (Dec.ofInt i).scaleb Dec.defaultPrec (-(f.length : Int)) with
      | .error err => .error err
      | .ok d => .ok (some d)
  | _, _ => .ok none

/-- The precision, `reader_text.py:873-924`. -/
def TsTokens.precision (t : TsTokens) : Precision :=
  if t.second.isSome then .second
  else if t.hour.isSome then .minute
  else if t.day.isSome then .day
  else if t.month.isSome then .month
  else .year

/-- `reader_text.py:870-935 _parse_timestamp`. -/
def parseTimestamp (year : List Nat) (t : TsTokens) : Except PyErr (Option PyVal) := do
  let tz ← parseOffset t
  let year ← intOr (some year) 0
  let month ← intOr t.month 1
  let day ← intOr t.day 1
  if t.hour.isSome ≠ t.minute.isSome then throw .assertionError
  let hour ← intOr t.hour 0
  let minute ← intOr t.minute 0
  let second ← intOr t.second 0
  let frac ← parseFraction t
  let ts ← Timestamp.new { year := year, month := month, day := day, hour := hour, minute := minute, second := second, micro := none, tz := tz, precision := some t.precision, fracPrecision := none, frac := frac }
  return some (.timestamp (.ts ts))

/-! ## Handlers -/

/-- The numeric components of `reader_text.py:654-804` that share `_numeric_handler_factory`. -/
inductive NumKind where
  /-- `_decimal_handler`: the exponent after `d` -/
  | decimal
  /-- `_float_handler`: the exponent after `e` -/
  | float
  /-- `fractional_number_handler` -/
  | fractional
  /-- `_whole_number_handler` -/
  | whole
  /-- `_binary_int_handler` -/
  | binary
  /-- `_hex_int_handler` -/
  | hex
  deriving DecidableEq, Repr

/-- Position in the prefix tree of typed nulls, `reader_text.py:181-246`. -/
inductive NullNode where
  | starts | s | st | str | b
  | leaf (ty : IonType) (rest : List Nat)
  deriving DecidableEq, Repr

/-- `reader_text.py:216-246 _NULL_STARTS` and the dictionaries below it. -/
def NullNode.next : NullNode → Nat → Option NullNode
  | .starts, c =>
    if c = 110 then some (.leaf .null [117, 108, 108])
    else if c = 115 then some .s
    else if c = 105 then some (.leaf .int [110, 116])
    else if c = 102 then some (.leaf .float [108, 111, 97, 116])
    else if c = 100 then some (.leaf .decimal [101, 99, 105, 109, 97, 108])
    else if c = 98 then some .b
    else if c = 99 then some (.leaf .clob [108, 111, 98])
    else if c = 108 then some (.leaf .list [105, 115, 116])
    else if c = 116 then some (.leaf .timestamp [105, 109, 101, 115, 116, 97, 109, 112])
    else none
  | .s, c =>
    if c = 121 then some (.leaf .symbol [109, 98, 111, 108])
    else if c = 101 then some (.leaf .sexp [120, 112])
    else if c = 116 then some .st
    else none
  | .st, c => if c = 114 then some .str else none
  | .str, c =>
    if c = 105 then some (.leaf .string [110, 103])
    else if c = 117 then some (.leaf .struct [99, 116])
    else none
  | .b, c =>
    if c = 108 then some (.leaf .blob [111, 98])
    else if c = 111 then some (.leaf .bool [111, 108])
    else none
  | .leaf ty (a :: rest), c => if c = a then some (.leaf ty rest) else none
  | .leaf _ [], _ => none

/-- Which characters may follow in a timestamp: the local `nxt` of `_timestamp_handler`. -/
inductive TsNext where
  | digits | digitsTerm | term | yearDelim | tTerm | colon | offColon | offDot | digitsOff
  deriving DecidableEq, Repr

/-- `c in nxt`. -/
def TsNext.has : TsNext → Nat → Bool
  | .digits, c => isDigit c
  | .digitsTerm, c => isDigit c || isTerm c
  | .term, c => isTerm c
  | .yearDelim, c => c = 45 || c = 84
  | .tTerm, c => c = 84 || isTerm c
  | .colon, c => c = 58
  | .offColon, c => c = 90 || c = 43 || c = 45 || c = 58
  | .offDot, c => c = 90 || c = 43 || c = 45 || c = 46
  | .digitsOff, c => isDigit c || c = 90 || c = 43 || c = 45

/-- Locals of `_timestamp_handler`. -/
structure TsState where
  prev : Nat
  state : Nat := 0
  nxt : TsNext
  tokens : TsTokens := {}
  canTerminate : Bool
  deriving DecidableEq, Repr

/-- Locals of `_symbol_or_keyword_handler`. -/
structure KwState where
  isField : Bool
  maybeNull : Bool
  maybeNan : Bool
  maybeTrue : Bool
  maybeFalse : Bool
  index : Nat := 0
  deriving DecidableEq, Repr

/-- Locals of `_symbol_identifier_or_unquoted_symbol_handler`. -/
structure DollarState where
  isField : Bool
  prev : Nat := 36
  maybeIvm : Bool
  completeIvm : Bool := false
  maybeSid : Bool := true
  index : Nat := 1
  post : Bool := false
  deriving DecidableEq, Repr

/-- A suspended handler. -/
inductive H where
  /-- `_number_negative_start_handler` -/
  | negStart
  /-- `_number_zero_start_handler` -/
  | zeroStart
  /-- `_number_or_timestamp_handler` -/
  | number
  /-- `_number_slash_end_handler` -/
  | slashEnd (e : IonEvent)
  /-- `numeric_handler` -/
  | numeric (k : NumKind) (prev : Nat)
  /-- `_timestamp_zero_start_handler` -/
  | tsZero
  /-- `_timestamp_handler` -/
  | ts (s : TsState)
  /-- `_comment_handler` after the slash; `ret` is `whence` (`none`: the container) -/
  | comment (ret : Option H)
  /-- `_comment_handler` in the loop -/
  | commentBody (ret : Option H) (block : Bool) (prev : Option Nat)
  /-- `_sexp_slash_handler` -/
  | sexpSlash (ret : Option H) (pending : Option IonEvent)
  /-- `_long_string_handler`; `first`: no character has been received -/
  | long (isField isClob : Bool) (quotes : Nat) (inData first : Bool)
  /-- `_long_string_handler`, line 1151 -/
  | longSymbol (e : IonEvent)
  /-- `_typed_null_handler` -/
  | typedNull (n : NullNode)
  /-- `_symbol_or_keyword_handler`, line 1219, and `_unquoted_symbol_handler`, line 1399: an operator was found -/
  | operatorStart (c : Nat)
  | operatorAfter (c : Nat)
  /-- `_symbol_or_keyword_handler` -/
  | keyword (s : KwState)
  /-- `inf_or_operator_handler`: whether negative, `match_index` -/
  | inf (neg : Bool) (index : Nat)
  /-- `_operator_symbol_handler` -/
  | operator
  /-- `_unquoted_symbol_handler`: `is_field_name`, `prev` -/
  | unquoted (isField : Bool) (prev : Nat)
  /-- `_symbol_identifier_or_unquoted_symbol_handler` -/
  | dollar (s : DollarState)
  /-- `_short_string_handler`: a string, a field name, a clob -/
  | shortString | shortField | shortClob
  /-- `_quoted_symbol_handler` -/
  | quotedSymbol (isField : Bool)
  /-- `_long_string_or_symbol_handler` -/
  | quote1 (isField : Bool)
  /-- `_two_single_quotes_handler` -/
  | quote2 (isField : Bool)
  /-- `_struct_or_lob_handler` -/
  | structOrLob
  /-- `_lob_start_handler`: number of quotes -/
  | lobStart (quotes : Nat)
  /-- `_blob_end_handler`: `prev`, digits, pads -/
  | blobEnd (prev digits pads : Nat)
  /-- `_clob_end_handler` -/
  | clobEnd (prev : Nat)
  /-- `container_start_handler` -/
  | containerStart (ty : IonType)

/-- What a handler returns to the container generator. -/
inductive Res where
  /-- an immediate transition to a handler -/
  | imm (h : H)
  /-- an immediate transition to the container generator, `ctx.whence` -/
  | self
  /-- an event transition -/
  | event (e : IonEvent)
  /-- `reader_text.py:523-552 _CompositeTransition` -/
  | composite (e : IonEvent) (next : Option H) (nextCtx : Ctx)

/-- Outcome of sending a character to a handler: a character to be unread, the context, the transition. -/
structure Out where
  unread : Option Nat := none
  ctx : Ctx
  res : Res

/-- Where a value is: the type of the container (`none` at top level) and the depth. -/
structure Env where
  ty : Option IonType
  depth : Nat

/-- `ctx.container.ion_type is IonType.SEXP`. -/
def Env.inSexp (v : Env) : Bool := v.ty = some .sexp
/-- `ctx.container.is_delimited`. -/
def Env.isDelimited (v : Env) : Bool := v.ty = some .struct || v.ty = some .list

/-- `ctx.queue.unread(c)`: `TypeError` for the end-of-file marker. -/
def checkUnread (c : Ch) : Except PyErr Nat := if c.code = EOF then .error .typeError else .ok c.code

/-- Creation of `_operator_symbol_handler`, `reader_text.py:1362-1368`. -/
def mkOperator (c : Nat) (x : Ctx) : Except PyErr (Ctx × H) :=
  match x.setUnicode false with
  | .error err => .error err
  | .ok x => .ok (x.push c, .operator)

/-- Creation of `_unquoted_symbol_handler`, `reader_text.py:1391-1412`. -/
def mkUnquoted (v : Env) (c : Nat) (x : Ctx) (isField : Bool) : Except PyErr (Ctx × H) :=
  match x.setUnicode false with
  | .error err => .error err
  | .ok x =>
    if isIdChar c then .ok (x.push c, .unquoted isField c)
    else if v.inSexp && isOp c then .ok (x, .operatorAfter c)
    else .error .ionException

/-- Creation of `numeric_handler`, `reader_text.py:679-689`, with the assertions and first characters of 711-804. -/
def mkNumeric (k : NumKind) (c : Nat) (x : Ctx) : Except PyErr (Ctx × H) :=
  match k with
  | .decimal => .ok ((x.setType (some .decimal)).push 101, .numeric k c)
  | .float => .ok ((x.setType (some .float)).push c, .numeric k c)
  | .fractional => .ok ((x.setType (some .decimal)).push c, .numeric k c)
  | .whole => .ok (if c = 95 then x else x.push c, .numeric k c)
  | .binary | .hex =>
    if (x.value = [48] ∨ x.value = [45, 48]) ∧ x.ionType = some .int then .ok (x.push c, .numeric k c)
    else .error .assertionError

/-- Creation of `_timestamp_handler`, `reader_text.py:939-957`. -/
def mkTimestamp (c : Nat) (x : Ctx) : Except PyErr (Ctx × H) :=
  let x := x.setType (some .timestamp)
  if x.value.length ≠ 4 then .error .ionException
  else .ok (x, .ts { prev := c, nxt := if c = 84 then .digitsTerm else .digits, canTerminate := c = 84 })

/-- Creation of `_number_zero_start_handler`, `reader_text.py:598-606`. -/
def mkZeroStart (c : Nat) (x : Ctx) : Except PyErr (Ctx × H) :=
  if x.value = [] ∨ x.value = [45] then .ok ((x.setType (some .int)).push c, .zeroStart) else .error .assertionError

/-- Creation of `_timestamp_zero_start_handler`, `reader_text.py:808-817`. -/
def mkTsZero (c : Nat) (x : Ctx) : Except PyErr (Ctx × H) :=
  let x := x.setType (some .timestamp)
  match x.value with
  | [] => .error .indexError
  | v :: _ => if v = 45 then .error .ionException else .ok (x.push c, .tsZero)

/-- `_FRACTIONAL_NUMBER_TABLE`, `_WHOLE_NUMBER_TABLE`, `reader_text.py:762-779`. -/
def wholeTable (dot : Bool) (c : Nat) (x : Ctx) : Except PyErr (Ctx × H) :=
  if dot && c = 46 then mkNumeric .fractional c x
  else if isDecExp c then mkNumeric .decimal c x
  else if isFloatExp c then mkNumeric .float c x
  else .error .ionException

/-- Creation of `_quoted_symbol_handler`, `reader_text.py:1526-1540,1587-1599`. -/
def mkQuotedSymbol (c : Ch) (x : Ctx) (isField : Bool) : Except PyErr (Ctx × H) :=
  if c.code = 39 ∧ ¬ c.esc then .error .assertionError
  else match x.setUnicode true with
    | .error err => .error err
    | .ok x =>
      if x.ionType = some .clob then .error .assertionError
      else if c.code = EOF then .error .typeError
      else if !isWsNotNl c.code && !c.esc && (c.code < 0x20 || c.code > 0x10FFFF) then .error .ionException
      else .ok (if c.nl then x else x.push c.code, .quotedSymbol isField)

/-- `reader_text.py:1078-1082 _validate_quoted_text`: an exception for illegal characters. -/
def badQuoted (longText : Bool) (isClob : Bool) (c : Ch) : Bool :=
  !(if longText then isWs c.code else isWsNotNl c.code) && !c.esc &&
    (c.code < 0x20 || c.code > (if isClob then 0x7F else 0x10FFFF))

/-- Creation of `_short_string_handler`, `reader_text.py:1526-1540,1556-1581`. -/
def mkShort (x : Ctx) (isField : Bool) : Except PyErr (Ctx × H) :=
  let isClob := x.ionType = some .clob
  match x.setUnicode true with
  | .error err => .error err
  | .ok x =>
    if isField then
      if isClob ∨ x.value ≠ [] then .error .assertionError else .ok (x.setPending (.text []), .shortField)
    else if isClob then .ok (x, .shortClob)
    else .ok (x.setType (some .string), .shortString)

/-- Creation of `_long_string_handler`, `reader_text.py:1098-1115`. -/
def mkLong (x : Ctx) (isField : Bool) : Except PyErr (Ctx × H) :=
  let isClob : Bool := x.ionType = some .clob
  if isClob && isField then .error .assertionError
  else
    let x := if !isClob && !isField then x.setType (some .string) else x
    if x.value ≠ [] then .error .assertionError
    else match x.setUnicode true with
      | .error err => .error err
      | .ok x => .ok (if isField then x.setPending (.text []) else x, .long isField isClob 0 true true)

/-- Creation of `_clob_end_handler`, `reader_text.py:1710-1716,1768-1778`. -/
def mkClobEnd (c : Nat) (x : Ctx) : Except PyErr (Ctx × H) :=
  if c = 125 || isWs c then .ok (x, .clobEnd c)
  else if x.selfDelim && c = 34 then .ok (x, .clobEnd c)
  else .error .ionException

/-- `reader_text.py:1742-1755`: the action of `_blob_end_handler`. -/
def blobAction (c prev digits pads : Nat) (x : Ctx) : Except PyErr (Ctx × Nat × Nat) :=
  if isB64 c then
    if prev = 125 ∨ prev = 61 then .error .ionException else .ok (x.push c, digits + 1, pads)
  else if c = 61 then
    if prev = 125 then .error .ionException else .ok (x.push c, digits, pads + 1)
  else .error .ionException

/-- Creation of `_blob_end_handler`, `reader_text.py:1710-1716`. -/
def mkBlobEnd (c : Nat) (x : Ctx) : Except PyErr (Ctx × H) :=
  if c = 125 || isWs c then .ok (x, .blobEnd c 0 0)
  else match blobAction c c 0 0 x with
    | .error err => .error err
    | .ok (x, d, p) => .ok (x, .blobEnd c d p)

/-- Creation of `_symbol_or_keyword_handler`, `reader_text.py:1211-1235`. -/
def mkKeyword (v : Env) (c : Nat) (x : Ctx) (isField : Bool) : Except PyErr (Ctx × H) :=
  if isIdStart c then
    if x.value ≠ [] then .error .assertionError
    else match x.setUnicode false with
      | .error err => .error err
      | .ok x => .ok ((x.setType (some .symbol)).push c, .keyword { isField := isField, maybeNull := c = 110, maybeNan := c = 110, maybeTrue := c = 116, maybeFalse := c = 102 })
  else if v.inSexp && isOp c then .ok (x, .operatorStart c)
  else .error .ionException

/-- Creation of `_symbol_identifier_or_unquoted_symbol_handler`, `reader_text.py:1446-1462`. -/
def mkDollar (v : Env) (c : Nat) (x : Ctx) (isField : Bool) : Except PyErr (Ctx × H) :=
  match x.setUnicode false with
  | .error err => .error err
  | .ok x => .ok ((x.setType (some .symbol)).push c, .dollar { isField := isField, maybeIvm := v.depth = 0 && !isField && x.annotations.isEmpty })

/-- `_FIELD_NAME_START_TABLE`, `reader_text.py:1880-1890`. -/
def fieldTable (v : Env) (c : Nat) (x : Ctx) : Except PyErr (Ctx × H) :=
  if c = 39 then .ok (x, .quote1 true)
  else if c = 34 then mkShort x true
  else if c = 36 then mkDollar v c x true
  else if isIdStart c then mkKeyword v c x true
  else .error .ionException

/-- `_VALUE_START_TABLE`, `reader_text.py:1892-1908`. -/
def valueTable (v : Env) (c : Nat) (x : Ctx) : Except PyErr (Ctx × H) :=
  if c = 45 then
    if x.value ≠ [] then .error .assertionError else .ok ((x.setType (some .int)).push c, .negStart)
  else if c = 43 then .ok (x.push c, .inf false 0)
  else if c = 48 then mkZeroStart c x
  else if c = 123 then .ok (x, .structOrLob)
  else if c = 40 then .ok (x, .containerStart .sexp)
  else if c = 91 then .ok (x, .containerStart .list)
  else if c = 39 then .ok (x, .quote1 false)
  else if c = 34 then mkShort x false
  else if c = 36 then mkDollar v c x false
  else if isDigit c then .ok ((x.setType (some .int)).push c, .number)
  else mkKeyword v c x false

/-- `immediate_transition` to a handler that has just been created. -/
def andGo (r : Except PyErr (Ctx × H)) (unread : Option Nat := none) : Except PyErr Out :=
  match r with
  | .error err => .error err
  | .ok (x, h) => .ok { unread := unread, ctx := x, res := .imm h }

/-- An event transition, or, if a slash ends the number, the transition to `_number_slash_end_handler`
(`reader_text.py:607-611,627-631,694-696,965-967`). -/
def endNumber (x : Ctx) (c : Ch) (e : IonEvent) : Except PyErr Out :=
  if c.code = 47 then .ok { ctx := x, res := .imm (.slashEnd e) } else .ok { ctx := x, res := .event e }

/-- A lazily parsed value, as the value of an event. -/
def someVal {α : Type} (f : α → PyVal) : Except PyErr α → Except PyErr (Option PyVal)
  | .error err => .error err
  | .ok a => .ok (some (f a))

/-- The `parse_func`s of the numeric components. -/
def NumKind.parse (F : FloatText) : NumKind → List Nat → Except PyErr (Option PyVal)
  | .decimal, l => someVal .decimal (parseDecimal l)
  | .float, l => someVal .float (F.parse l)
  | .fractional, l => someVal .decimal (parseDecimal l)
  | .whole, l => someVal .int (parseInt l)
  | .binary, l => someVal .int (parseRadix 2 l)
  | .hex, l => someVal .int (parseRadix 16 l)

/-- `charset` -/
def NumKind.charset : NumKind → Nat → Bool
  | .binary, c => c = 48 || c = 49
  | .hex, c => isHex c
  | _, c => isDigit c

/-- `illegal_before_underscore` -/
def NumKind.badBefore : NumKind → Nat → Bool
  | .decimal, c => isDecExp c || isSign c
  | .float, c => isFloatExp c || isSign c
  | .fractional, c | .whole, c => c = 46
  | .binary, c => c = 66 || c = 98
  | .hex, c => c = 88 || c = 120

/-- `illegal_at_end` -/
def NumKind.badEnd : NumKind → Nat → Bool
  | .fractional, _ | .whole, _ => false
  | k, c => k.badBefore c

/-- The callable `transition` of the numeric components: a character outside the character set. -/
def NumKind.transition (k : NumKind) (prev c : Nat) (x : Ctx) : Except PyErr Out :=
  match k with
  | .decimal => if isSign c && isDecExp prev then .ok { ctx := x.push c, res := .imm (.numeric k c) } else .error .ionException
  | .float => if isSign c && isFloatExp prev then .ok { ctx := x.push c, res := .imm (.numeric k c) } else .error .ionException
  | .fractional => if prev = 95 then .error .ionException else andGo (wholeTable false c x)
  | .whole => if prev = 95 then .error .ionException else andGo (wholeTable true c x)
  | .binary | .hex => .error .ionException

/-- `reader_text.py:690-707`: one character for a numeric component. -/
def onNumeric (F : FloatText) (v : Env) (k : NumKind) (prev : Nat) (x : Ctx) (c : Ch) : Except PyErr Out :=
  if endsValue c.code then
    if prev = 95 ∨ k.badEnd prev then .error .ionException
    else endNumber x c (x.event v.depth x.ionType (k.parse F x.value))
  else if c.code = 95 then
    if prev = 95 ∨ k.badBefore prev then .error .ionException else .ok { ctx := x, res := .imm (.numeric k c.code) }
  else if k.charset c.code then .ok { ctx := x.push c.code, res := .imm (.numeric k c.code) }
  else k.transition prev c.code x

/-- `reader_text.py:981-1016`: a digit within a timestamp; the state, `nxt` and `can_terminate` after it. -/
def tsDigit (s : TsState) (c : Nat) : Except PyErr TsState :=
  let add (t : TsTokens) (n : Nat) : TsTokens := t.upd n (fun o => some (o.getD [] ++ [c]))
  if s.prev = 43 ∨ (s.state > 1 ∧ s.prev = 45) then
    .ok { s with prev := c, state := 7, tokens := add (s.tokens.upd 7 fun _ => some (if s.prev = 45 then [45] else [])) 7 }
  else if s.prev = 45 ∨ s.prev = 58 ∨ s.prev = 46 ∨ s.prev = 84 then
    let n := s.state + 1
    .ok { s with prev := c, state := n, tokens := add (s.tokens.upd n fun _ => some []) n, nxt := if n = 6 then .digitsOff else s.nxt }
  else if isDigit s.prev then
    let t := add s.tokens s.state
    match s.state with
    | 1 => .ok { s with prev := c, tokens := t, nxt := .yearDelim }
    | 2 => .ok { s with prev := c, tokens := t, nxt := .tTerm, canTerminate := true }
    | 3 => .ok { s with prev := c, tokens := t, nxt := .colon }
    | 4 => .ok { s with prev := c, tokens := t, nxt := .offColon }
    | 5 => .ok { s with prev := c, tokens := t, nxt := .offDot }
    | 6 => .ok { s with prev := c, tokens := t, nxt := .digitsOff }
    | 7 => .ok { s with prev := c, tokens := t, nxt := .colon }
    | 8 => .ok { s with prev := c, tokens := t, nxt := .term, canTerminate := true }
    | _ => .error .valueError
  else .error .valueError

/-- `reader_text.py:958-1018`: one character for `_timestamp_handler`. -/
def onTs (v : Env) (s : TsState) (x : Ctx) (c : Ch) : Except PyErr Out :=
  let isEof : Bool := s.canTerminate && c.code = EOF
  if !s.nxt.has c.code && !isEof then .error .ionException
  else if isTerm c.code || isEof then
    if !s.canTerminate then .error .ionException
    else endNumber x c (x.event v.depth x.ionType (parseTimestamp x.value s.tokens))
  else
    let s := { s with canTerminate := false }
    if c.code = 90 then
      .ok { ctx := x, res := .imm (.ts { s with prev := c.code, nxt := .term, canTerminate := true, tokens := (s.tokens.upd 7 fun _ => some [48]).upd 8 fun _ => some [48] }) }
    else if c.code = 84 then
      .ok { ctx := x, res := .imm (.ts { s with prev := c.code, nxt := .digitsTerm, canTerminate := true }) }
    else if c.code = 45 || c.code = 58 || c.code = 43 || c.code = 46 then
      .ok { ctx := x, res := .imm (.ts { s with prev := c.code, nxt := .digits }) }
    else if isDigit c.code then
      match tsDigit s c.code with
      | .error err => .error err
      | .ok s => .ok { ctx := x, res := .imm (.ts s) }
    else .ok { ctx := x, res := .imm (.ts { s with prev := c.code }) }

/-- `reader_text.py:1025-1035`: the character after the slash.  For the end-of-file marker the message raises. -/
def commentStart (x : Ctx) (c : Ch) : Except PyErr (Ctx × Bool) :=
  if c.code = 47 then .ok ({ x with lineComment := true }, false)
  else if c.code = 42 then .ok ({ x with lineComment := false }, true)
  else if c.code = EOF then .error .typeError
  else .error .ionException

/-- `reader_text.py:1039-1048`: a character of a comment. -/
def onComment (ret : Option H) (block : Bool) (prev : Option Nat) (x : Ctx) (c : Ch) : Except PyErr Out :=
  let stop : Bool := if block then prev = some 42 && c.code = 47 else isNewline c.code || c.code = EOF
  if stop then .ok { ctx := { x with selfDelim := true }, res := match ret with | none => .self | some h => .imm h }
  else .ok { ctx := x, res := .imm (.commentBody ret block (if block then some c.code else prev)) }

/-- `_CompositeTransition(pending_event, ctx, partial(_operator_symbol_handler, c))`: the operator is the first character of
a new child. -/
def thenOperator (e : IonEvent) (c : Nat) (x : Ctx) (unread : Nat) : Except PyErr Out :=
  match mkOperator c {} with
  | .error err => .error err
  | .ok (nx, h) => .ok { unread := some unread, ctx := { x with composite := true }, res := .composite e (some h) nx }

/-- `reader_text.py:1059-1068`: one character for `_sexp_slash_handler`. -/
def onSexpSlash (ret : Option H) (pending : Option IonEvent) (x : Ctx) (c : Ch) : Except PyErr Out :=
  match checkUnread c with
  | .error err => .error err
  | .ok u =>
    if c.code = 42 ∨ c.code = 47 then .ok { unread := some u, ctx := x, res := .imm (.comment ret) }
    else match pending with
      | some e => thenOperator e 47 x u
      | none => andGo (mkOperator 47 x) (some u)

/-- Where `_long_string_handler` collects the text: in the value, or in the pending symbol of a field name. -/
def Ctx.extend (x : Ctx) (isField : Bool) (l : List Nat) : Ctx :=
  if isField then { x with pending := some (match x.pending with | some (.text t) => .text (t ++ l) | _ => .text l) }
  else { x with value := x.value ++ l }

/-- `reader_text.py:1134-1158`: quotes after the end of a long string. -/
def longQuotes (v : Env) (isField isClob : Bool) (quotes : Nat) (x : Ctx) (c : Ch) : Except PyErr Out :=
  if isField || isClob then .error .ionException
  else if v.isDelimited then .error .ionException
  else
    let e := x.event v.depth x.ionType (.ok (some (.str x.value)))
    if quotes = 1 then
      if c.code = EOF then .error .ionException
      else .ok { unread := some c.code, ctx := x.setQuoted true, res := .imm (.longSymbol e) }
    else
      let x := { x.setEmptySymbol with composite := true }
      .ok { ctx := x, res := .composite e none x }

/-- `reader_text.py:1159-1174`: another character after the end of a long string. -/
def longAfter (v : Env) (isField isClob : Bool) (x : Ctx) (c : Ch) : Except PyErr Out :=
  let here : H := .long isField isClob 0 false false
  let e := x.event v.depth x.ionType (.ok (some (.str x.value)))
  if isClob then andGo (mkClobEnd c.code x)
  else if c.code = 47 then
    if v.inSexp then .ok { ctx := x, res := .imm (.sexpSlash (some here) (some e)) }
    else .ok { ctx := x, res := .imm (.comment (some here)) }
  else if isField then
    if c.code ≠ 58 then .error .ionException else .ok { ctx := x, res := .self }
  else .ok { ctx := x, res := .event e }

/-- `reader_text.py:1118-1177`: one character for `_long_string_handler`. -/
def onLong (v : Env) (isField isClob : Bool) (quotes : Nat) (inData first : Bool) (x : Ctx) (c : Ch) : Except PyErr Out :=
  let x := if first then x else { x with selfDelim := false }
  if c.code = 39 ∧ ¬ c.esc then
    if quotes = 2 then .ok { ctx := x.setQuoted (!inData), res := .imm (.long isField isClob 0 (!inData) false) }
    else .ok { ctx := x, res := .imm (.long isField isClob (quotes + 1) inData false) }
  else if inData then
    if badQuoted true isClob c then .error .ionException
    else
      let l := List.replicate quotes 39 ++ (if isNewline c.code ∧ c.nl then [] else [c.code])
      .ok { ctx := x.extend isField l, res := .imm (.long isField isClob 0 inData false) }
  else if quotes > 0 then longQuotes v isField isClob quotes x c
  else if isWs c.code then .ok { ctx := x, res := .imm (.long isField isClob 0 inData false) }
  else longAfter v isField isClob x c

/-- `reader_text.py:1190-1207`: one character for `_typed_null_handler`. -/
def onTypedNull (v : Env) (n : NullNode) (x : Ctx) (c : Ch) : Except PyErr Out :=
  match n with
  | .leaf ty [] =>
    if endsValue c.code || (v.inSexp && isOp c.code) then .ok { ctx := x, res := .event (x.event v.depth (some ty) (.ok none)) }
    else .error .ionException
  | n => match n.next c.code with
    | none => .error .ionException
    | some n => .ok { ctx := x, res := .imm (.typedNull n) }

/-- The keywords of `_symbol_or_keyword_handler` without their first letter. -/
inductive Kw where
  | null | nan | true_ | false_
  deriving DecidableEq, Repr

/-- `_NULL_SUFFIX`, `_NAN_SUFFIX`, `_TRUE_SUFFIX`, `_FALSE_SUFFIX` -/
def Kw.suffix : Kw → List Nat
  | .null => [117, 108, 108]
  | .nan => [97, 110]
  | .true_ => [114, 117, 101]
  | .false_ => [97, 108, 115, 101]

/-- `float('nan')`. -/
def NAN : UInt64 := 0x7FF8000000000000
/-- `float('+inf')`. -/
def POS_INF : UInt64 := 0x7FF0000000000000
/-- `float('-inf')`. -/
def NEG_INF : UInt64 := 0xFFF0000000000000

/-- The event of a keyword. -/
def Kw.event (k : Kw) (v : Env) (x : Ctx) : IonEvent :=
  match k with
  | .null => x.event v.depth (some .null) (.ok none)
  | .nan => x.event v.depth (some .float) (.ok (some (.float NAN)))
  | .true_ => x.event v.depth (some .bool) (.ok (some (.bool true)))
  | .false_ => x.event v.depth (some .bool) (.ok (some (.bool false)))

/-- `reader_text.py:1236-1258 check_keyword`: whether the token may still be the keyword, and a transition. -/
def checkKeyword (v : Env) (k : Kw) (isField : Bool) (index : Nat) (x : Ctx) (c : Nat) : Except PyErr (Bool × Option Res) :=
  match k.suffix[index]? with
  | some a => .ok (c = a, none)
  | none =>
    if k = .null ∧ c = 46 then
      if isField then .error .ionException else .ok (true, some (.imm (.typedNull .starts)))
    else if endsValue c then
      if isField then .error .ionException else .ok (true, some (.event (k.event v x)))
    else if c = 58 then .error .ionException
    else if v.inSexp && isOp c then .ok (true, some (.event (k.event v x)))
    else .ok (false, none)

/-- `reader_text.py:1282-1290`: the token is not a keyword. -/
def notKeyword (v : Env) (isField : Bool) (x : Ctx) (c : Nat) : Except PyErr Out :=
  if isSymTerm c then .ok { ctx := x.setPending (.text x.value), res := .self }
  else if endsValue c || (v.inSexp && isOp c) then
    match x.symbolEvent v.depth (.text x.value) with
    | .error err => .error err
    | .ok e => .ok { ctx := x, res := .event e }
  else andGo (mkUnquoted v c x isField)

/-- `reader_text.py:1259-1275`: the checks that apply, in order: the flags after them, and the last transition. -/
def keywordChecks (v : Env) (s : KwState) (x : Ctx) (c : Nat) : Except PyErr (KwState × Option Res) := do
  let (s, tr) ← (if s.maybeNull then do
      let r ← checkKeyword v .null s.isField s.index x c
      return ({ s with maybeNull := r.1 }, r.2)
    else .ok (s, none) : Except PyErr (KwState × Option Res))
  if s.maybeNan then do
    let r ← checkKeyword v .nan s.isField s.index x c
    return ({ s with maybeNan := r.1 }, r.2)
  else if s.maybeTrue then do
    let r ← checkKeyword v .true_ s.isField s.index x c
    return ({ s with maybeTrue := r.1 }, r.2)
  else if s.maybeFalse then do
    let r ← checkKeyword v .false_ s.isField s.index x c
    return ({ s with maybeFalse := r.1 }, r.2)
  else return (s, tr)

/-- `reader_text.py:1235-1291`: one character for `_symbol_or_keyword_handler`. -/
def onKeyword (v : Env) (s : KwState) (x : Ctx) (c : Ch) : Except PyErr Out :=
  match keywordChecks v s x c.code with
  | .error err => .error err
  | .ok (s', tr) =>
    if s'.maybeNull || s'.maybeNan || s'.maybeTrue || s'.maybeFalse then
      match tr with
      | some r => .ok { ctx := x, res := r }
      | none => .ok { ctx := x.push c.code, res := .imm (.keyword { s' with index := s'.index + 1 }) }
    else notKeyword v s.isField x c.code

/-- `reader_text.py:1333-1353`: the token is not an infinity. -/
def notInf (v : Env) (index : Nat) (x : Ctx) (c : Nat) : Except PyErr Out :=
  match x.setUnicode false with
  | .error err => .error err
  | .ok x =>
    if !v.inSexp then .error .ionException
    else if index = 0 then
      if isOp c then andGo (mkOperator c x)
      else match x.symbolEvent v.depth (.text x.value) with
        | .error err => .error err
        | .ok e => .ok { ctx := x, res := .event e }
    else match x.symbolEvent v.depth (.text x.value) with
      | .error err => .error err
      | .ok e => match mkUnquoted v c { value := infSuffix.take index } false with
        | .error err => .error err
        | .ok (nx, h) => .ok { ctx := { x with composite := true }, res := .composite e (some h) nx }

/-- `reader_text.py:1320-1354`: one character for `inf_or_operator_handler`. -/
def onInf (v : Env) (neg : Bool) (index : Nat) (x : Ctx) (c : Ch) : Except PyErr Out :=
  let x := x.setType (some .float)
  match infSuffix[index]? with
  | some a => if c.code = a then .ok { ctx := x, res := .imm (.inf neg (index + 1)) } else notInf v index x c.code
  | none =>
    if endsValue c.code || (v.inSexp && isOp c.code) then
      .ok { ctx := x, res := .event (x.event v.depth (some .float) (.ok (some (.float (if neg then NEG_INF else POS_INF))))) }
    else notInf v index x c.code

/-- `reader_text.py:1376-1387 _symbol_token_end`. -/
def symbolEnd (v : Env) (c : Nat) (x : Ctx) (isField : Bool) (t : Tok) : Except PyErr Out :=
  if isField || isSymTerm c || x.quoted then
    .ok { ctx := (({ x with selfDelim := x.quoted } : Ctx).setPending t).setQuoted false, res := .self }
  else match x.symbolEvent v.depth t with
    | .error err => .error err
    | .ok e => .ok { ctx := x, res := .event e }

/-- The end of an unquoted token, `reader_text.py:1415,1465`. -/
def endsToken (v : Env) (prev c : Nat) : Bool := isWs prev || endsValue c || c = 58 || (v.inSexp && isOp c)

/-- `reader_text.py:1413-1422`: one character for `_unquoted_symbol_handler`. -/
def onUnquoted (v : Env) (isField : Bool) (prev : Nat) (x : Ctx) (c : Ch) : Except PyErr Out :=
  if isWs c.code then .ok { ctx := x, res := .imm (.unquoted isField c.code) }
  else if endsToken v prev c.code then symbolEnd v c.code x isField (.text x.value)
  else if isIdChar c.code then .ok { ctx := x.push c.code, res := .imm (.unquoted isField c.code) }
  else .error .ionException

/-- `reader_text.py:1468-1479`: the recognition of `$ion_1_0`: `maybe_ivm`, `complete_ivm`, `ivm_post_underscore` after a
character. -/
def ivmCheck (s : DollarState) (c : Nat) : Bool × Bool × Bool :=
  if s.maybeIvm then
    if s.index = 5 then
      if isDigit c then (true, s.completeIvm || s.post, s.post)
      else if c = 95 ∧ ¬ s.post then (true, s.completeIvm, true)
      else (false, false, s.post)
    else (ivmPrefix[s.index]? = some c, s.completeIvm, s.post)
  else (false, s.completeIvm, s.post)

/-- `reader_text.py:1490-1498`: the token is complete. -/
def dollarEnd (v : Env) (s : DollarState) (x : Ctx) (c : Nat) : Except PyErr Out :=
  if x.value.length = 1 then symbolEnd v c x s.isField (.text x.value)
  else if s.maybeSid then
    if s.maybeIvm then .error .assertionError
    else symbolEnd v c x s.isField (.sym ⟨none, some (digitsVal (x.value.drop 1)), none⟩)
  else if s.completeIvm then symbolEnd v c x s.isField (.ivm ⟨some x.value, none, none⟩)
  else symbolEnd v c x s.isField (.text x.value)

/-- `reader_text.py:1463-1498`: one character for `_symbol_identifier_or_unquoted_symbol_handler`. -/
def onDollar (v : Env) (s : DollarState) (x : Ctx) (c : Ch) : Except PyErr Out :=
  if isWs c.code then
    .ok { ctx := x, res := .imm (.dollar { s with prev := c.code, maybeIvm := s.maybeIvm && !(decide (s.index < 5)) }) }
  else if endsToken v s.prev c.code then dollarEnd v s x c.code
  else
    let sid := s.maybeSid && isDigit c.code
    let r := ivmCheck s c.code
    if r.1 then
      .ok { ctx := x.push c.code, res := .imm (.dollar { s with prev := c.code, maybeSid := sid, maybeIvm := true, completeIvm := r.2.1, post := r.2.2, index := if s.index < 5 then s.index + 1 else s.index }) }
    else if !sid then andGo (mkUnquoted v c.code x s.isField)
    else .ok { ctx := x.push c.code, res := .imm (.dollar { s with prev := c.code, maybeSid := sid, maybeIvm := false, completeIvm := r.2.1, post := r.2.2 }) }

/-- `reader_text.py:1541-1552`: one character for a short string.  `isString`: neither field name nor clob. -/
def onShort (v : Env) (isField isClob : Bool) (h : H) (x : Ctx) (c : Ch) : Except PyErr Out :=
  if c.code = 34 ∧ ¬ c.esc then
    if isField then .ok { ctx := { x.setQuoted false with selfDelim := true }, res := .self }
    else if isClob then andGo (mkClobEnd c.code { x.setQuoted false with selfDelim := true })
    else .ok { ctx := { x with selfDelim := true }, res := .event (x.event v.depth x.ionType (.ok (some (.str x.value)))) }
  else if badQuoted false isClob c then .error .ionException
  else .ok { ctx := x.extend isField (if isNewline c.code ∧ c.nl then [] else [c.code]), res := .imm h }

/-- `reader_text.py:1541-1552`: one character for a quoted symbol. -/
def onQuotedSymbol (v : Env) (isField : Bool) (x : Ctx) (c : Ch) : Except PyErr Out :=
  if c.code = 39 ∧ ¬ c.esc then symbolEnd v c.code x isField (.text x.value)
  else if badQuoted false false c then .error .ionException
  else .ok { ctx := x.extend false (if isNewline c.code ∧ c.nl then [] else [c.code]), res := .imm (.quotedSymbol isField) }

/-- `reader_text.py:1672-1689`: one character for `_lob_start_handler`. -/
def onLobStart (quotes : Nat) (x : Ctx) (c : Ch) : Except PyErr Out :=
  if isWs c.code then
    if quotes > 0 then .error .ionException else .ok { ctx := x, res := .imm (.lobStart quotes) }
  else if c.code = 34 then
    if quotes > 0 then .error .ionException
    else match (x.setType (some .clob)).setUnicode true with
      | .error err => .error err
      | .ok x => andGo (mkShort x false)
  else if c.code = 39 then
    match (if quotes = 0 then (x.setType (some .clob)).setUnicode true else .ok x) with
    | .error err => .error err
    | .ok x => if quotes = 2 then andGo (mkLong x false) else .ok { ctx := x, res := .imm (.lobStart (quotes + 1)) }
  else andGo (mkBlobEnd c.code x)

/-- `reader_text.py:1718-1731`: the end of a lob. -/
def lobEvent (v : Env) (ty : IonType) (x : Ctx) : Out :=
  { ctx := { x with selfDelim := true }, res := .event (x.event v.depth (some ty) (parseLob ty x)) }

/-- `reader_text.py:1718-1731`: one character for `_blob_end_handler`. -/
def onBlobEnd (v : Env) (prev digits pads : Nat) (x : Ctx) (c : Ch) : Except PyErr Out :=
  if isWs c.code then
    if prev = 125 then .error .ionException else .ok { ctx := x, res := .imm (.blobEnd c.code digits pads) }
  else if c.code = 125 then
    if prev = 125 then
      if pads > 3 ∨ (digits + pads) % 4 ≠ 0 then .error .ionException else .ok (lobEvent v .blob x)
    else .ok { ctx := x, res := .imm (.blobEnd c.code digits pads) }
  else match blobAction c.code prev digits pads x with
    | .error err => .error err
    | .ok (x, d, p) => .ok { ctx := x, res := .imm (.blobEnd c.code d p) }

/-- `reader_text.py:1718-1731`: one character for `_clob_end_handler`. -/
def onClobEnd (v : Env) (prev : Nat) (x : Ctx) (c : Ch) : Except PyErr Out :=
  if isWs c.code then
    if prev = 125 then .error .ionException else .ok { ctx := x, res := .imm (.clobEnd c.code) }
  else if c.code = 125 then
    if prev = 125 then .ok (lobEvent v .clob x) else .ok { ctx := x, res := .imm (.clobEnd c.code) }
  else .error .ionException

/-- A character is sent to a handler. -/
def handle (F : FloatText) (v : Env) (x : Ctx) (h : H) (c : Ch) : Except PyErr Out :=
  match h with
  | .negStart =>
    -- 593-594 with `_NEGATIVE_TABLE`, 1865-1873; 1309-1315
    if c.code = 48 then andGo (mkZeroStart c.code x)
    else if isDigit c.code then andGo (mkNumeric .whole c.code x)
    else match checkUnread c with
      | .error err => .error err
      | .ok u => .ok { unread := some u, ctx := x, res := .imm (.inf true 0) }
  | .zeroStart =>
    -- 606-612 with `_ZERO_START_TABLE`, 1846-1853
    if endsValue c.code then endNumber x c (x.event v.depth x.ionType (someVal .int (parseInt x.value)))
    else if c.code = 66 ∨ c.code = 98 then andGo (mkNumeric .binary c.code x)
    else if c.code = 88 ∨ c.code = 120 then andGo (mkNumeric .hex c.code x)
    else if isDigit c.code then andGo (mkTsZero c.code x)
    else andGo (wholeTable true c.code x)
  | .number =>
    -- 624-637 with `_NUMBER_OR_TIMESTAMP_TABLE`, 1855-1863
    if endsValue c.code then endNumber x c (x.event v.depth x.ionType (someVal .int (parseInt x.value)))
    else if isDigit c.code then .ok { ctx := x.push c.code, res := .imm .number }
    else if c.code = 45 ∨ c.code = 84 then andGo (mkTimestamp c.code x)
    else if c.code = 95 then andGo (mkNumeric .whole c.code x)
    else andGo (wholeTable true c.code x)
  | .slashEnd e =>
    -- 646-651
    match commentStart {} c with
    | .error err => .error err
    | .ok (nx, block) => .ok { ctx := { x with composite := true }, res := .composite e (some (.commentBody none block none)) nx }
  | .numeric k prev => onNumeric F v k prev x c
  | .tsZero =>
    -- 820-826
    if c.code = 45 ∨ c.code = 84 then andGo (mkTimestamp c.code x)
    else if isDigit c.code then .ok { ctx := x.push c.code, res := .imm .tsZero }
    else .error .ionException
  | .ts s => onTs v s x c
  | .comment ret =>
    match commentStart x c with
    | .error err => .error err
    | .ok (x, block) => .ok { ctx := x, res := .imm (.commentBody ret block none) }
  | .commentBody ret block prev => onComment ret block prev x c
  | .sexpSlash ret pending => onSexpSlash ret pending x c
  | .long isField isClob quotes inData first => onLong v isField isClob quotes inData first x c
  | .longSymbol e =>
    -- 1151-1156
    match mkQuotedSymbol c {} false with
    | .error err => .error err
    | .ok (nx, h) => .ok { ctx := { x with composite := true }, res := .composite e (some h) nx }
  | .typedNull n => onTypedNull v n x c
  | .operatorStart o =>
    -- 1219-1221
    match checkUnread c with
    | .error err => .error err
    | .ok u => andGo (mkOperator o x) (some u)
  | .operatorAfter o =>
    -- 1399-1406
    match checkUnread c with
    | .error err => .error err
    | .ok u =>
      if x.value = [] then .error .assertionError
      else match x.symbolEvent v.depth (.text x.value) with
        | .error err => .error err
        | .ok e => thenOperator e o x u
  | .keyword s => onKeyword v s x c
  | .inf neg index => onInf v neg index x c
  | .operator =>
    -- 1369-1373
    if isOp c.code then .ok { ctx := x.push c.code, res := .imm .operator }
    else match x.symbolEvent v.depth (.text x.value) with
      | .error err => .error err
      | .ok e => .ok { ctx := x, res := .event e }
  | .unquoted isField prev => onUnquoted v isField prev x c
  | .dollar s => onDollar v s x c
  | .shortString => onShort v false false h x c
  | .shortField => onShort v true false h x c
  | .shortClob => onShort v false true h x c
  | .quotedSymbol isField => onQuotedSymbol v isField x c
  | .quote1 isField =>
    -- 1616-1636
    if c.code = 39 ∧ ¬ c.esc then .ok { ctx := x.setType (some .symbol), res := .imm (.quote2 isField) }
    else match x.setUnicode true with
      | .error err => .error err
      | .ok x => andGo (mkQuotedSymbol c x isField)
  | .quote2 isField =>
    if c.code = 39 ∧ ¬ c.esc then
      match x.setUnicode true with
      | .error err => .error err
      | .ok x => andGo (mkLong x isField)
    else match x.setUnicode true with
      | .error err => .error err
      | .ok x => .ok { ctx := (x.setType (some .symbol)).setPending (.text []), res := .self }
  | .structOrLob =>
    -- 1643-1644, 1875-1877, 1809
    if c.code = 123 then .ok { ctx := x, res := .imm (.lobStart 0) }
    else match checkUnread c with
      | .error err => .error err
      | .ok u => .ok { unread := some u, ctx := x, res := .imm (.containerStart .struct) }
  | .lobStart quotes => onLobStart quotes x c
  | .blobEnd prev digits pads => onBlobEnd v prev digits pads x c
  | .clobEnd prev => onClobEnd v prev x c
  | .containerStart ty =>
    -- 1801-1804
    .ok { ctx := x, res := .event { x.event v.depth (some ty) (.ok none) with eventType := .containerStart } }

/-! ## The container generator -/

/-- The generator of an enclosing container. -/
structure Frame where
  ty : Option IonType
  isField : Bool
  deriving DecidableEq, Repr

/-- Where the container generator is. -/
inductive Pc where
  /-- at the top of the outer loop (2019) with the character `c` -/
  | head (c : Option Nat)
  /-- in the inner loop (2095), about to get a character for the handler -/
  | token (h : H) (quotedStart : Bool)
  /-- after an event (2128), with the character `c`: whether the value was self-delimiting, and the next handler -/
  | afterEvent (c : Option Nat) (selfDelim : Bool) (next : Option H)
  /-- after the start of a container -/
  | enter (ty : IonType) (c : Option Nat)
  /-- after the end of an inner container -/
  | resumed
  /-- in `_next_code_point_handler`, reading hexadecimal digits of an escape that cannot be completed -/
  | hexLoop

/-- State of `_container_handler` and of the generators of the enclosing containers. -/
structure St where
  outer : List Frame := []
  ty : Option IonType := none
  isField : Bool := false
  delim : Bool := false
  complete : Bool := true
  canFlush : Bool := false
  child : Option Ctx := none
  pc : Pc := .head none

/-- An action. -/
inductive Act where
  /-- an exception is raised -/
  | err (e : PyErr)
  /-- an event is yielded, then the state is entered -/
  | emit (e : IonEvent) (s : St)
  /-- `if len(queue) == 0: yield ctx.read_data_event(self, complete, can_flush)`, then `c = queue.read_byte()` -/
  | read (complete canFlush : Bool) (k : Nat → Act)
  /-- `queue.unread(c)` -/
  | unread (c : Nat) (a : Act)
  /-- 1996-1997: `assert len(queue) == 0`, `yield ctx.read_data_event(self, complete=True)` -/
  | wait (a : Act)
  /-- the state is entered -/
  | go (s : St)

/-- `decode('unicode-escape')` of a backslash and a character, `_COMMON_ESCAPES`. -/
def commonEscape (c : Nat) : Option Nat :=
  if c = 97 then some 7 else if c = 98 then some 8 else if c = 116 then some 9 else if c = 110 then some 10
  else if c = 102 then some 12 else if c = 114 then some 13 else if c = 118 then some 11 else if c = 63 then some 63
  else if c = 48 then some 0 else if c = 39 then some 39 else if c = 34 then some 34 else if c = 47 then some 47
  else if c = 92 then some 92 else none

/-- `reader_text.py:2217-2223`: `n` hexadecimal digits are read; `acc` is their value so far. -/
def readHex : Nat → Nat → (Nat → Act) → Act
  | 0, acc, k => k acc
  | n + 1, acc, k => .read false false fun c => if isHex c then readHex n (16 * acc + hexVal c) k else .err .ionException

/-- The value of surrogates, `util.py:273-276`. -/
def combine (high low : Nat) : Nat := 0x10000 + (high - 0xD800) * 0x400 + (low - 0xDC00)

/-- `reader_text.py:2179-2238`: an escaped low surrogate must follow. -/
def lowEscape (high : Nat) (long : Bool) (s : St) (k : Ch → Act) : Act :=
  .read false false fun c =>
    if c = 92 then .read false false fun c =>
      if c = 117 then
        if long then .go { s with pc := .hexLoop }
        else readHex 4 0 fun low =>
          if isLowSurrogate low then k { code := combine high low, esc := true } else .err .valueError
      else .err .ionException
    else if isLowSurrogate c then .err .valueError
    else .err .ionException

/-- `reader_text.py:2224-2236`: the decoded escape sequence. -/
def decoded (cp : Nat) (long : Bool) (s : St) (k : Ch → Act) : Act :=
  if cp > 0x10FFFF then .err .unicodeError
  else if isLowSurrogate cp then .err .valueError
  else if isHighSurrogate cp then lowEscape cp long s k
  else k { code := cp, esc := true }

/-- `reader_text.py:2239-2255`: a newline, possibly `\r\n`. -/
def newline (c : Nat) (escaped : Bool) (k : Ch → Act) : Act :=
  if c = 13 then .read false false fun c' =>
    if c' = 10 then k { code := 10, esc := escaped, nl := escaped }
    else if c' = EOF then .err .typeError
    else .unread c' (k { code := 10, esc := escaped, nl := escaped })
  else k { code := c, esc := escaped, nl := escaped }

/-- `reader_text.py:2186-2216`: the character after a backslash. -/
def escapeSeq (clob : Bool) (s : St) (k : Ch → Act) : Act :=
  .read false false fun c =>
    if c = 117 ∧ ¬ clob then readHex 4 0 fun cp => decoded cp false s k
    else if c = 120 then readHex 2 0 fun cp => decoded cp false s k
    else if c = 85 ∧ ¬ clob then readHex 8 0 fun cp => decoded cp true s k
    else match commonEscape c with
      | some cp => k { code := cp, esc := true }
      | none => if isNewline c then newline c true k else .err .ionException

/-- `reader_text.py:2172-2255 _next_code_point_handler`. -/
def codePoint (clob : Bool) (s : St) (k : Ch → Act) : Act :=
  .read false false fun c =>
    if isLowSurrogate c then .err .valueError
    else if isHighSurrogate c then .read false false fun low =>
      if isLowSurrogate low then k { code := combine c low } else .err .valueError
    else if c = 92 then escapeSeq clob s k
    else newline c false k

/-- `is_value_decorated`, 1947-1948. -/
def decorated (child : Option Ctx) : Bool :=
  match child with
  | none => false
  | some x => !x.annotations.isEmpty || x.fieldName.isSome

/-- `_can_flush`, 1950-1965. -/
def St.flushable (s : St) : Bool :=
  match s.child with
  | none => false
  | some x => s.outer.isEmpty &&
    ((match x.ionType with
      | some .int | some .float | some .decimal | some .timestamp => true
      | some .symbol | some .string => !s.isField
      | _ => false) || (x.lineComment && !decorated s.child))

/-- `has_pending_symbol`, 1931-1932. -/
def St.pending (s : St) : Option Tok := s.child.bind (·.pending)

/-- the environment of a child -/
def St.env (s : St) : Env := { ty := s.ty, depth := s.outer.length }

/-- `ctx.container.end` -/
def isEnd (ty : Option IonType) (c : Nat) : Bool :=
  match ty with
  | some .struct => c = 125
  | some .list => c = 93
  | some .sexp => c = 41
  | _ => false

/-- The transition of a handler back to the container generator, 2108-2129. -/
def onSelf (s : St) (x : Ctx) (c : Nat) : Act :=
  let s := { s with child := some (x.setType none), complete := false }
  let s := { s with canFlush := s.flushable }
  let x := x.setType none
  if s.isField then
    if c = 58 || !x.selfDelim then .go { s with pc := .head (some c) }
    else .read s.complete s.canFlush fun c => .go { s with pc := .head (some c) }
  else if x.pending.isSome then
    let s := { s with canFlush := s.outer.isEmpty }
    if !x.selfDelim || x.lineComment then .go { s with pc := .head (some c) }
    else .read s.complete s.canFlush fun c => .go { s with pc := .head (some c) }
  else
    let s := { s with complete := x.selfDelim && s.outer.isEmpty && !decorated s.child }
    .read s.complete s.canFlush fun c => .go { s with pc := .head (some c) }

/-- The transition that a handler has returned, 2070-2132; `c` is the character that was sent. -/
def onRes (s : St) (x : Ctx) (c : Option Nat) (r : Res) : Act :=
  match r with
  | .imm h =>
    let s := { s with child := some x }
    .go { s with canFlush := s.flushable, pc := .token h false }
  | .self => onSelf s x (c.getD 0)
  | .event e =>
    if x.composite then .err .attributeError
    else
      let s := { s with child := none }
      match e.eventType, e.ionType with
      | .containerStart, some ty => .emit e { s with pc := .enter ty c }
      | _, _ => .emit e { s with pc := .afterEvent c x.selfDelim none }
  | .composite e next nx => .emit e { s with child := some nx, pc := .afterEvent c false next }

/-- `trans = handler.send((c, handler))`, 2069. -/
def onChar (F : FloatText) (s : St) (x : Ctx) (h : H) (c : Option Ch) : Act :=
  match handle F s.env x h (c.getD { code := EOF }) with
  | .error err => .err err
  | .ok o =>
    let a := onRes s o.ctx (c.map (·.code)) o.res
    match o.unread with
    | none => a
    | some u => .unread u a

/-- A character that begins a token or a comment, 1999-2053. -/
def onStart (s : St) (c : Nat) : Act :=
  let s := { s with canFlush := false }
  if c = 47 then
    let x := s.child.getD {}
    let s := { s with child := some x }
    if s.ty = some .sexp then
      match x.pending with
      | none => .go { s with pc := .token (.sexpSlash none none) false }
      | some t =>
        if x.value ≠ [] then .err .assertionError
        else match x.symbolEvent s.outer.length t with
          | .error err => .err err
          | .ok e => .go { s with pc := .token (.sexpSlash none (some e)) false }
    else .go { s with pc := .token (.comment none) false }
  else if s.delim then .err .ionException
  else match s.child, s.pending with
    | some x, some t =>
      if c = 58 then
        if s.isField then
          match x.setFieldName with
          | .error err => .err err
          | .ok x => .go { s with isField := false, child := some x, pc := .head none }
        else .read false false fun c =>
          if c = 58 then
            match x.setAnnotation with
            | .error err => .err err
            | .ok x => .go { s with child := some x, pc := .head none }
          else .err .ionException
      else if s.isField then .err .ionException
      else match x.symbolEvent s.outer.length t with
        | .error err => .err err
        | .ok e => .emit e { s with child := none, delim := s.env.isDelimited, pc := .head (some c) }
    | _, _ =>
      let x := if decorated s.child then s.child.getD {} else {}
      match (if s.isField then fieldTable s.env c x else valueTable s.env c x) with
      | .error err => .err err
      | .ok (x, h) => .go { s with child := some x, canFlush := !s.isField, pc := .token h (c = 34 || c = 39) }

/-- A character that ends the container, a delimiter or the end of the data, 1975-1998, when there is no pending symbol. -/
def onClose (s : St) (c : Nat) : Act :=
  if isEnd s.ty c then
    if !s.delim && decorated s.child then .err .ionException
    else match s.outer with
      | [] => .err .modelFuel
      | f :: fs =>
        .emit { eventType := .containerEnd, ionType := s.ty, depth := some fs.length }
          { outer := fs, ty := f.ty, isField := f.isField, pc := .resumed }
  else if c = 44 then
    if !s.delim then .err .ionException
    else
      let s := { s with isField := decide (s.ty = some IonType.struct), delim := false }
      .read s.complete s.canFlush fun c => .go { s with pc := .head (some c) }
  else .wait (.read s.complete s.canFlush fun c => .go { s with pc := .head (some c) })

/-- The top of the outer loop, 1967-1998 and 2133-2137. -/
def onHead (s : St) (c : Option Nat) : Act :=
  match c with
  | none => .read s.complete s.canFlush fun c => .go { s with pc := .head (some c) }
  | some c =>
    if isEnd s.ty c || (s.env.isDelimited && c = 44) || c = EOF then
      match s.child, s.pending with
      | some x, some t =>
        if x.value ≠ [] then .err .assertionError
        else if s.ty = some .struct ∧ x.fieldName = none then .err .ionException
        else match x.symbolEvent s.outer.length t with
          | .error err => .err err
          | .ok e => .emit e { s with child := none, delim := s.env.isDelimited, pc := .head (some c) }
      | _, _ => onClose s c
    else if isWs c then .read s.complete s.canFlush fun c => .go { s with pc := .head (some c) }
    else onStart s c

/-- 2054-2069: a character for the handler: none for the start of a list or s-expression; a code point within quotes. -/
def onToken (F : FloatText) (s : St) (h : H) (quotedStart : Bool) : Act :=
  let x := s.child.getD {}
  match h with
  | .containerStart .list => onChar F s x h none
  | .containerStart .sexp => onChar F s x h none
  | h =>
    if x.quoted || quotedStart then codePoint (x.ionType = some .clob) s fun c => onChar F s x h (some c)
    else .read false s.canFlush fun c => onChar F s x h (some { code := c })

/-- What the generator does from a state on. -/
def next (F : FloatText) (s : St) : Act :=
  match s.pc with
  | .head c => onHead s c
  | .token h q => onToken F s h q
  | .afterEvent c selfDelim nxt =>
    -- 2095-2107
    let s := { s with complete := s.outer.isEmpty, canFlush := false, delim := s.env.isDelimited }
    let rest (c : Option Nat) : Act := match nxt with
      | none => .go { s with pc := .head c }
      | some h => .go { s with canFlush := s.flushable, pc := .token h false }
    if selfDelim then .read s.complete false fun c => rest (some c) else rest c
  | .enter ty c =>
    -- 2089-2094, 1923-1929
    .go { outer := ⟨s.ty, s.isField⟩ :: s.outer, ty := some ty, isField := decide (ty = IonType.struct), complete := false, pc := .head c }
  | .resumed =>
    let s := { s with complete := s.outer.isEmpty, canFlush := false, delim := s.env.isDelimited }
    .read s.complete false fun c => .go { s with pc := .head (some c) }
  | .hexLoop => .read false false fun c => if isHex c then .go s else .err .ionException

/-! ## The trampolines -/

/-- What happens next: an event, a wait for data (`wait`: after the end of the data), an exception. -/
inductive Outcome where
  | event (e : IonEvent) (s : St) (q : BufferQueue Nat)
  | block (complete canFlush : Bool) (k : Nat → Act) (q : BufferQueue Nat)
  | waiting (a : Act) (q : BufferQueue Nat)
  | error (e : PyErr)

/-- The action is carried out on the queue until it yields to the user.  `none`: it never does. -/
def advance (F : FloatText) (a : Act) (q : BufferQueue Nat) : Option Outcome :=
  match a with
  | .err e => some (.error e)
  | .emit e s => some (.event e s q)
  | .read complete canFlush k =>
    if q.size = 0 then some (.block complete canFlush k q)
    else match q.readByte with
      | .error err => some (.error err)
      | .ok (c, q) => advance F (k c) q
  | .unread c a => match q.unread c with
    | (.error err, _) => some (.error err)
    | (.ok (), q) => advance F a q
  | .wait a => if q.size = 0 then some (.waiting a q) else some (.error .assertionError)
  | .go s => advance F (next F s) q
partial_fixpoint

/-- State of the reader between two `send`s: `reader_trampoline`, and the locals of `_skip_trampoline`: `depth`, and whether
it is skipping. -/
inductive Status where
  /-- created -/
  | fresh
  /-- an event was delivered -/
  | paused (e : IonEvent) (s : St) (q : BufferQueue Nat) (depth : Int)
  /-- `INCOMPLETE` or `STREAM_END` was delivered: data is needed -/
  | blocked (complete canFlush : Bool) (k : Nat → Act) (q : BufferQueue Nat) (depth : Int) (skipping : Bool)
  /-- `STREAM_END` was delivered after the end of the data -/
  | waiting (a : Act) (q : BufferQueue Nat) (depth : Int) (skipping : Bool)
  /-- an exception was raised -/
  | dead

/-- `reader_text.py:2141-2165 _skip_trampoline`: what is handed to the user.  While skipping, `STREAM_END` leads to an endless
loop. -/
def deliver (F : FloatText) (depth : Int) (skipping : Bool) (a : Act) (q : BufferQueue Nat) :
    Option (Except PyErr IonEvent × Status) :=
  (advance F a q) >>= fun o =>
    match o with
    | .error err => some (.error err, .dead)
    | .block complete canFlush k q =>
      if skipping && complete then none
      else some (.ok (if complete then ION_STREAM_END_EVENT else ION_STREAM_INCOMPLETE_EVENT), .blocked complete canFlush k q depth skipping)
    | .waiting a q => if skipping then none else some (.ok ION_STREAM_END_EVENT, .waiting a q depth skipping)
    | .event e s q =>
      if skipping then
        if e.eventType = .containerEnd ∧ e.depth.getD 0 ≤ depth then some (.ok e, .paused e s q depth)
        else deliver F depth true (.go s) q
      else if e.eventType = .containerStart ∨ e.eventType = .containerEnd then
        some (.ok e, .paused e s q (e.depth.getD 0))
      else some (.ok e, .paused e s q depth)
partial_fixpoint

/-- A reader that never answers. -/
def orDiverge (r : Option (Except PyErr IonEvent × Status)) : Except PyErr IonEvent × Status :=
  r.getD (.error .modelFuel, .dead)

/-- `reader.py:346-369 reader_trampoline(..., allow_flush=True)` with `reader_text.py:1815-1843 _read_data_handler`: one `send`.
`units` gives the characters of a chunk of data (bytes, or the representation of a `str`, see `strUnits`). -/
def send (F : FloatText) (units : Bytes → List Nat) (st : Status) (cmd : RawReader.Cmd) : Except PyErr IonEvent × Status :=
  match st, cmd with
  | .dead, _ => (.error .stopIteration, .dead)
  | .fresh, .next => orDiverge (deliver F 0 false (.go {}) .empty)
  | .fresh, _ => (.error .typeError, .dead)
  | .paused _ _ _ _, .data _ => (.error .typeError, .dead)
  | .paused _ s q depth, .next => orDiverge (deliver F depth false (.go s) q)
  | .paused e s q depth, .skip =>
    if e.depth = some 0 ∧ e.eventType ≠ .containerStart then (.error .typeError, .dead)
    else orDiverge (deliver F depth true (.go s) q)
  | .blocked complete canFlush k q depth skipping, .data d =>
    if units d = [] then (.error .valueError, .dead)
    else orDiverge (deliver F depth skipping (.read complete canFlush k) (q.extend (units d)))
  | .blocked complete canFlush k q depth skipping, .next =>
    if complete then (.error .typeError, .dead)
    else if canFlush then orDiverge (deliver F depth skipping (.read complete canFlush k) (q.extend [EOF]))
    else (.error .ionException, .dead)
  | .blocked _ _ _ _ _ _, .skip => (.error .typeError, .dead)
  | .waiting a q depth skipping, .data d =>
    if units d = [] then (.error .valueError, .dead)
    else orDiverge (deliver F depth skipping a (q.extend (units d)))
  | .waiting _ _ _ _, _ => (.error .typeError, .dead)

/-- The characters of `bytes`. -/
def byteUnits (d : Bytes) : List Nat := d.map UInt8.toNat

/-- A `str` in place of `bytes` as data: in the model, a chunk of `str` is represented by three bytes for every code point
(big-endian). -/
def strUnits : Bytes → List Nat
  | a :: b :: c :: rest => (a.toNat * 65536 + b.toNat * 256 + c.toNat) :: strUnits rest
  | _ => []

/-- The representation of a `str`, see `strUnits`. -/
def strBytes (t : Text) : Bytes :=
  t.flatMap fun c => [UInt8.ofNat (c / 65536), UInt8.ofNat (c / 256 % 256), UInt8.ofNat (c % 256)]

end Ion.TextReader
