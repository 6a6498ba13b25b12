import Verif.Events
import Verif.Util
/-!
# The text writer

Models `amazon/ion/writer_text.py:44-456` and `serialize_scalar` of `amazon/ion/writer.py:65-75`.

Data is a list of numbers: the bytes of a `bytes` object.  All text that the module writes is ASCII except the indent,
which is encoded as Latin-1.

Simplifications: `repr` of a finite `float` is a parameter (`FloatText`); `str` of an integer has no limit on the number
of digits (recent versions of CPython refuse more than 4300 digits); of the non-finite decimals only `Infinity` and `NaN`
are distinguished.
-/
namespace Ion

/-- What the code relies on of the conversion between `float` (its bit pattern) and text: `repr` of a finite value, and
`float(...)` of a numeric text, which may raise `ValueError`. -/
structure FloatText where
  repr : UInt64 → List Nat
  parse : List Nat → Except PyErr UInt64

/-- The code points of a list of characters. -/
def asc (l : List Char) : List Nat := l.map Char.toNat

/-- `str(n)` of a natural number: decimal digits. -/
def natDigits (n : Nat) : List Nat := if n < 10 then [48 + n] else natDigits (n / 10) ++ [48 + n % 10]
termination_by n

/-- `str(i)` of an integer. -/
def intDigits (i : Int) : List Nat := if i < 0 then 45 :: natDigits i.natAbs else natDigits i.natAbs

/-- A lower case hexadecimal digit. -/
def hexDigit (n : Nat) : Nat := if n < 10 then 48 + n else 87 + n

/-- `'%0wx' % n` for `n < 16^w`. -/
def hexFixed : Nat → Nat → List Nat
  | 0, _ => []
  | w + 1, n => hexFixed w (n / 16) ++ [hexDigit (n % 16)]

/-- `n` with `w` decimal digits, `n < 10^w` (`strftime('%m')` etc.). -/
def decFixed : Nat → Nat → List Nat
  | 0, _ => []
  | w + 1, n => decFixed w (n / 10) ++ [48 + n % 10]

namespace TextWriter
open Ion

/-- `writer_text.py:46-60 _NULL_TYPE_NAMES`. -/
def nullName : IonType → List Nat
  | .null => asc ['n','u','l','l']
  | .bool => asc ['n','u','l','l','.','b','o','o','l']
  | .int => asc ['n','u','l','l','.','i','n','t']
  | .float => asc ['n','u','l','l','.','f','l','o','a','t']
  | .decimal => asc ['n','u','l','l','.','d','e','c','i','m','a','l']
  | .timestamp => asc ['n','u','l','l','.','t','i','m','e','s','t','a','m','p']
  | .symbol => asc ['n','u','l','l','.','s','y','m','b','o','l']
  | .string => asc ['n','u','l','l','.','s','t','r','i','n','g']
  | .clob => asc ['n','u','l','l','.','c','l','o','b']
  | .blob => asc ['n','u','l','l','.','b','l','o','b']
  | .list => asc ['n','u','l','l','.','l','i','s','t']
  | .sexp => asc ['n','u','l','l','.','s','e','x','p']
  | .struct => asc ['n','u','l','l','.','s','t','r','u','c','t']

/-- `writer_text.py:63-67 _serialize_bool`. -/
def serializeBool (b : Bool) : List Nat := if b then asc ['t','r','u','e'] else asc ['f','a','l','s','e']

/-- `e` or `E`, `writer_text.py:94 _EXPONENT_PAT`. -/
def isExp (c : Nat) : Bool := c = 101 || c = 69

/-- `math.isnan`: exponent bits all ones and a mantissa. -/
def isNan (bits : UInt64) : Bool := bits.toNat / 2 ^ 52 % 2048 = 2047 && bits.toNat % 2 ^ 52 ≠ 0
/-- `math.isinf`. -/
def isInf (bits : UInt64) : Bool := bits.toNat / 2 ^ 52 % 2048 = 2047 && bits.toNat % 2 ^ 52 = 0
/-- the sign bit -/
def isNegative (bits : UInt64) : Bool := bits.toNat / 2 ^ 63 = 1

/-- `writer_text.py:98-109 _float_str`. -/
def floatStr (F : FloatText) (bits : UInt64) : List Nat :=
  if isNan bits then asc ['n','a','n']
  else if isInf bits then (if isNegative bits then asc ['-','i','n','f'] else asc ['+','i','n','f'])
  else
    let text := F.repr bits
    if text.any isExp then text else text ++ asc ['e','0']

/-- `Decimal.__str__` of a finite decimal (`to-scientific-string`; `Lib/_pydecimal.py`). -/
def decimalToStr (d : Dec) : List Nat :=
  let int := natDigits d.coeff
  let leftdigits : Int := d.exp + int.length
  let dotplace : Int := if d.exp ≤ 0 ∧ leftdigits > -6 then leftdigits else 1
  let body : List Nat :=
    if dotplace ≤ 0 then 48 :: 46 :: (List.replicate (-dotplace).toNat 48 ++ int)
    else if dotplace ≥ int.length then int ++ List.replicate (dotplace - int.length).toNat 48
    else int.take dotplace.toNat ++ 46 :: int.drop dotplace.toNat
  let exp : List Nat :=
    if leftdigits = dotplace then []
    else 69 :: (if leftdigits - dotplace < 0 then 45 else 43) :: natDigits (leftdigits - dotplace).natAbs
  (if d.sign then [45] else []) ++ body ++ exp

/-- `writer_text.py:120-123`: what `_decimal_str` makes of `str(val)`. -/
def decimalFix (text : List Nat) : List Nat :=
  let new := text.map fun c => if isExp c then 100 else c
  if text = new ∧ 46 ∉ text then new ++ asc ['d','0'] else new

/-- `writer_text.py:118-123 _decimal_str`. -/
def decimalStr (d : Dec) : List Nat := decimalFix (decimalToStr d)

/-- `strftime('%z')` with a colon put in after the hours, or the short forms: `writer_text.py:132-140 _bytes_utc_offset`.
Seconds and microseconds of the offset appear only if they are not zero. -/
def utcOffset : Option Int → List Nat
  | none => asc ['-','0','0',':','0','0']
  | some off =>
    if off = 0 then [90]
    else
      let s := off.natAbs / 1000000
      let micro := off.natAbs % 1000000
      [if off < 0 then 45 else 43] ++ decFixed 2 (s / 3600) ++ [58] ++ decFixed 2 (s / 60 % 60)
        ++ (if s % 60 ≠ 0 ∨ micro ≠ 0 then decFixed 2 (s % 60) else [])
        ++ (if micro ≠ 0 then 46 :: decFixed 6 micro else [])

/-- `writer_text.py:176-188`: the fraction of the seconds. -/
def fractionStr (f : Dec) : List Nat :=
  if f.coeff = 0 ∧ f.exp ≥ 0 then []
  else
    let digits := natDigits f.coeff
    46 :: (List.replicate (-f.exp - digits.length).toNat 48 ++ digits)

/-- `writer_text.py:143-189 _bytes_datetime`.  A `Timestamp` whose `precision` is `None` raises `AttributeError`.  The fake
year 2008 of line 151 is not observable. -/
def datetimeStr (v : Scalars.TimeVal) : Except PyErr (List Nat) :=
  let dt := v.dateTime
  let year := decFixed 4 dt.year
  let build (p : Precision) (frac : List Nat) : List Nat :=
    if !p.includesMonth then year ++ [84]
    else
      let t := year ++ 45 :: decFixed 2 dt.month
      if !p.includesDay then t ++ [84]
      else
        let t := t ++ 45 :: decFixed 2 dt.day ++ [84]
        if !p.includesMinute then t
        else
          let t := t ++ decFixed 2 dt.hour ++ 58 :: decFixed 2 dt.minute
          if !p.includesSecond then t ++ utcOffset dt.tz
          else t ++ 58 :: decFixed 2 dt.second ++ frac ++ utcOffset dt.tz
  match v with
  | .ts t => match t.precision with
    | none => .error .attributeError
    | some p => .ok (build p (fractionStr t.frac))
  | .dt d => .ok (build .second (46 :: decFixed 6 d.micro))

/-- `writer_text.py:203-204 _is_printable_ascii`. -/
def isPrintable (c : Nat) : Bool := 0x20 ≤ c && c ≤ 0x7E

/-- `writer_text.py:216-224 _escape`. -/
def escape (c : Nat) : List Nat :=
  if c = 10 then asc ['\\','n']
  else if c = 13 then asc ['\\','r']
  else if c = 9 then asc ['\\','t']
  else if c ≤ 0xFF then asc ['\\','x'] ++ hexFixed 2 c
  else if c ≤ 0xFFFF then asc ['\\','u'] ++ hexFixed 4 c
  else asc ['\\','U'] ++ hexFixed 8 c

/-- `writer_text.py:233-240`: one code point; `quote` is `None` for unquoted text. -/
def bytesChar (quote : Option Nat) (c : Nat) : List Nat :=
  if some c = quote then [92, c]
  else if c = 92 then [92, 92]
  else if isPrintable c then [c]
  else escape c

/-- `writer_text.py:227-243 _bytes_text` of code points. -/
def bytesText (cps : List Nat) (quote : Option Nat) (pre suf : List Nat) : List Nat :=
  pre ++ quote.toList ++ cps.flatMap (bytesChar quote) ++ quote.toList ++ suf

/-- `_bytes_text(unicode_iter(text), ...)`: the iteration may raise. -/
def textOrError (text : Text) (quote : Option Nat) (suf : List Nat) : Except PyErr (List Nat) :=
  match unicodeIter text with
  | (_, some err) => .error err
  | (cps, none) => .ok (bytesText cps quote [] suf)

/-- first character class of `writer_text.py:249 _UNQUOTED_SYMBOL_REGEX` -/
def isIdentStart (c : Nat) : Bool := (97 ≤ c && c ≤ 122) || (65 ≤ c && c ≤ 90) || c = 36 || c = 95
/-- the other characters of `_UNQUOTED_SYMBOL_REGEX` -/
def isIdentPart (c : Nat) : Bool := isIdentStart c || (48 ≤ c && c ≤ 57)

/-- `writer_text.py:249 _UNQUOTED_SYMBOL_REGEX`. -/
def isIdentifier : Text → Bool
  | [] => false
  | c :: cs => isIdentStart c && cs.all isIdentPart

/-- `writer_text.py:250 _ADDITIONAL_SYMBOLS_REQUIRING_QUOTES`. -/
def keywords : List Text := [asc ['n','a','n'], asc ['n','u','l','l'], asc ['f','a','l','s','e'], asc ['t','r','u','e']]

/-- `writer_text.py:252-253 _symbol_needs_quotes`. -/
def needsQuotes (t : Text) : Bool := t ∈ keywords || !isIdentifier t

/-- `writer_text.py:264-265`: symbol text. -/
def symbolText (t : Text) (suf : List Nat) : Except PyErr (List Nat) :=
  textOrError t (if needsQuotes t then some 39 else none) suf

/-- `writer_text.py:255-265 _serialize_symbol_value` of a token. -/
def serializeToken (k : SymbolToken) (suf : List Nat) : Except PyErr (List Nat) :=
  match k.text with
  | some t => symbolText t suf
  | none => match k.sid with
    | some n => .ok (36 :: natDigits n ++ suf)
    | none => .error .typeError

/-- `writer_text.py:255-265 _serialize_symbol_value` of a field name or annotation. -/
def serializeSymArg (a : SymArg) (suf : List Nat) : Except PyErr (List Nat) :=
  match a with
  | .text t => symbolText t suf
  | .tok k => serializeToken k suf

/-- The digits of Base64. -/
def b64Digit (n : Nat) : Nat :=
  if n < 26 then 65 + n else if n < 52 then 71 + n else if n < 62 then n - 4 else if n = 62 then 43 else 47

/-- `base64.b64encode`. -/
def b64encode : List Nat → List Nat
  | [] => []
  | [a] => [b64Digit (a / 4), b64Digit (a % 4 * 16), 61, 61]
  | [a, b] => [b64Digit (a / 4), b64Digit (a % 4 * 16 + b / 16), b64Digit (b % 16 * 4), 61]
  | a :: b :: c :: rest =>
    b64Digit (a / 4) :: b64Digit (a % 4 * 16 + b / 16) :: b64Digit (b % 16 * 4 + c / 64) :: b64Digit (c % 64) ::
      b64encode rest

/-- The numbers of a `bytes` object. -/
def byteNums (b : Bytes) : List Nat := b.map UInt8.toNat

/-- Python truth value, `if ion_event.value` in `writer_text.py:64`; see `RawWriter.truthy`. -/
def truthy : PyVal → Bool
  | .bool b => b
  | .int i => i ≠ 0
  | .float bits => bits.toNat % 2 ^ 63 ≠ 0
  | .decimal d => d.coeff ≠ 0
  | .decimalSpecial _ => true
  | .timestamp _ => true
  | .sym _ => true
  | .str t => t ≠ []
  | .bytes b => b ≠ []

/-- `writer_text.py:283-285 _serialize_clob`: an empty `str` passes, anything else but `bytes` raises `TypeError`. -/
def serializeClob : PyVal → Except PyErr (List Nat)
  | .bytes b => .ok (bytesText (byteNums b) (some 34) [123, 123] [125, 125])
  | .str [] => .ok (bytesText [] (some 34) [123, 123] [125, 125])
  | _ => .error .typeError

/-- `writer_text.py:293-304 _SERIALIZE_SCALAR_JUMP_TABLE` applied to a value that is not `None`, for a type that is not a
container.  `str(True)` is `True`. -/
def serializeValue (F : FloatText) (ty : IonType) (v : PyVal) : Except PyErr (List Nat) :=
  match ty with
  | .null => .error .typeError
  | .bool => .ok (serializeBool (truthy v))
  | .int => match v with
    | .int i => .ok (intDigits i)
    | .bool b => .ok (if b then asc ['T','r','u','e'] else asc ['F','a','l','s','e'])
    | _ => .error .typeError
  | .float => match v with
    | .float bits => .ok (floatStr F bits)
    | _ => .error .typeError
  | .decimal => match v with
    | .decimal d => .ok (decimalStr d)
    | .decimalSpecial hasDigits => .ok (decimalFix (if hasDigits then asc ['I','n','f','i','n','i','t','y'] else asc ['N','a','N']))
    | _ => .error .typeError
  | .timestamp => match v with
    | .timestamp t => datetimeStr t
    | _ => .error .typeError
  | .symbol => match v with
    | .sym k => serializeToken k []
    | .str t => symbolText t []
    | _ => .error .typeError
  | .string => match v with
    | .str t => textOrError t (some 34) []
    | _ => .error .typeError
  | .clob => serializeClob v
  | .blob => match v with
    | .bytes b => .ok ([123, 123] ++ b64encode (byteNums b) ++ [125, 125])
    | _ => .error .typeError
  | .list | .sexp | .struct => .error .typeError

/-- `writer.py:69-75 serialize_scalar` with the tables of this module; see `RawWriter.serializeScalar`. -/
def serializeScalar (F : FloatText) (e : IonEvent) : Except PyErr (List Nat) :=
  match e.value with
  | .error err => .error err
  | .ok v => match v, e.ionType with
    | none, none => .error .typeError
    | none, some ty => .ok (nullName ty)
    | some _, none => .error .attributeError
    | some v, some ty => serializeValue F ty v

/-! ## The co-routine -/

/-- `writer_text.py:339-343 _CONTAINER_START_MAP` -/
def openMark : IonType → List Nat | .struct => [123] | .sexp => [40] | _ => [91]
/-- `writer_text.py:344-348 _CONTAINER_END_MAP` -/
def closeMark : IonType → List Nat | .struct => [125] | .sexp => [41] | _ => [93]
/-- `writer_text.py:349-358`, both delimiter maps. -/
def delimiter (pretty : Bool) : IonType → List Nat
  | .sexp => if pretty then [] else [32]
  | _ => [44]

/-- The locals of the co-routines, innermost first: `container_event.ion_type` and `has_written_values` of those below top
level; `has_written_values` at top level. -/
structure State where
  frames : List (IonType × Bool) := []
  top : Bool := false
  deriving DecidableEq, Repr

/-- `has_written_values` of the active co-routine. -/
def State.written (s : State) : Bool := match s.frames with | [] => s.top | (_, w) :: _ => w

/-- `writer_text.py:432 has_written_values = True`. -/
def State.setWritten (s : State) : State :=
  match s.frames with
  | [] => { s with top := true }
  | (ty, _) :: fs => { s with frames := (ty, true) :: fs }

/-- Outcome of handing one event to the co-routine: the chunks it yields as `HAS_PENDING`, then the type and data of the
last `DataEvent` with the new state, or an exception. -/
abbrev Step := List (List Nat) × Except PyErr ((WriteEventType × List Nat) × State)

/-- `writer_text.py:377-386`: the delimiter before an event. -/
def delimiterChunks (pretty : Bool) (s : State) (e : IonEvent) : List (List Nat) :=
  if s.written && e.eventType ≠ .streamEnd && e.eventType ≠ .containerEnd then
    let d := match s.frames with
      | [] => if pretty then [] else [32]
      | (ty, _) :: _ => delimiter pretty ty
    if d.isEmpty then [] else [d]
  else []

/-- `writer_text.py:388-392`: newline and indentation. -/
def indentChunks (indent : Option (List Nat)) (s : State) (e : IonEvent) : List (List Nat) :=
  match indent with
  | none => []
  | some ind =>
    if (s.written || !s.frames.isEmpty) && e.eventType ≠ .streamEnd then
      let n := s.frames.length - (if e.eventType = .containerEnd then 1 else 0)
      [10] :: (if 0 < n then [(List.replicate n ind).flatten] else [])
    else []

/-- `writer_text.py:394-401`: the field name. -/
def fieldChunks (pretty : Bool) (s : State) (e : IonEvent) : Except PyErr (List (List Nat)) :=
  match s.frames with
  | (.struct, _) :: _ =>
    if e.eventType.beginsValue then
      match e.fieldName with
      | none => .error .typeError
      | some f => match serializeSymArg f [58] with
        | .error err => .error err
        | .ok b => .ok (if pretty then [b, [32]] else [b])
    else .ok []
  | _ => .ok []

/-- `writer_text.py:403-406`: the annotations; those before a failing one have been yielded. -/
def annotationChunks : List SymArg → List (List Nat) × Option PyErr
  | [] => ([], none)
  | a :: as => match serializeSymArg a [58, 58] with
    | .error err => ([], some err)
    | .ok b =>
      let r := annotationChunks as
      (b :: r.1, r.2)

/-- `writer_text.py:408-433`: the event itself. -/
def finish (F : FloatText) (s : State) (e : IonEvent) : Except PyErr ((WriteEventType × List Nat) × State) :=
  match e.eventType with
  | .containerStart => match e.ionType with
    | none => .error .attributeError
    | some ty =>
      if ty.isContainer then .ok ((.needsInput, openMark ty), { s.setWritten with frames := (ty, false) :: s.setWritten.frames })
      else .error .typeError
  | .streamEnd => match s.frames with
    | [] => .ok ((.complete, []), s.setWritten)
    | _ :: _ => .error .typeError
  | .versionMarker => match s.frames with
    | [] => .ok ((.complete, TEXT_ION_1_0), s.setWritten)
    | _ :: _ => .error .typeError
  | .scalar => match serializeScalar F e with
    | .error err => .error err
    | .ok b => .ok ((if s.frames.isEmpty then .complete else .needsInput, b), s.setWritten)
  | .containerEnd => match s.frames with
    | [] => .error .typeError
    | (ty, _) :: fs => .ok ((if fs.isEmpty then .complete else .needsInput, closeMark ty), { s with frames := fs })
  | .incomplete => .error .typeError

/-- One event handled by `writer_text.py:367-433 _raw_writer_coroutine`. -/
def step (F : FloatText) (indent : Option (List Nat)) (s : State) (e : IonEvent) : Step :=
  let pre := delimiterChunks indent.isSome s e ++ indentChunks indent s e
  match fieldChunks indent.isSome s e with
  | .error err => (pre, .error err)
  | .ok fc =>
    let ann := if e.eventType.beginsValue then annotationChunks e.annotations else ([], none)
    match ann.2 with
    | some err => (pre ++ fc ++ ann.1, .error err)
    | none => (pre ++ fc ++ ann.1, finish F s e)

/-- `re.search(r'\A\s*\Z', indent)`: the whitespace of Python's `re` for `str`. -/
def isSpace (c : Nat) : Bool :=
  (9 ≤ c && c ≤ 13) || (28 ≤ c && c ≤ 32) || c = 0x85 || c = 0xA0 || c = 0x1680 || (0x2000 ≤ c && c ≤ 0x200A) ||
    c = 0x2028 || c = 0x2029 || c = 0x202F || c = 0x205F || c = 0x3000

/-- `writer_text.py:437-453 raw_writer`: the check of the indent, and its encoding as Latin-1. -/
def checkIndent : Option Text → Except PyErr (Option (List Nat))
  | none => .ok none
  | some t =>
    if t.all isSpace then
      if t.all (· < 256) then .ok (some t) else .error .unicodeError
    else .error .valueError

/-- What the writer writes for a sequence of events, driven as `blocking_writer` drives it: all data in the order written,
and the state or the exception that ends the run. -/
def runText (F : FloatText) (indent : Option (List Nat)) (s : State) : List IonEvent → List Nat × Except PyErr State
  | [] => ([], .ok s)
  | e :: es => match step F indent s e with
    | (cs, .error err) => (cs.flatten, .error err)
    | (cs, .ok ((_, d), s')) =>
      let r := runText F indent s' es
      (cs.flatten ++ d ++ r.1, r.2)

end TextWriter
end Ion
