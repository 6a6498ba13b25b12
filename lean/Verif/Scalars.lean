import Verif.Fields
import Verif.Utf8
import Verif.Timestamp
/-!
# Scalar bodies of binary Ion

Models the scalar serializers of `amazon/ion/writer_binary_raw.py:105-279` and the scalar parsers of
`amazon/ion/reader_binary.py:187-204,616-759`.
-/
namespace Ion.Scalars
open Ion Ion.Fields

/-- `writer_binary_raw.py:114-119 _write_length` (`tid` has a zero low nibble, so `|` is `+` for lengths below 16). -/
def writeLength (length tid : Nat) : List Nat :=
  if length < 14 then [tid ||| length] else (tid ||| 0x0E) :: writeVarUInt length

/-- `writer_binary_raw.py:122-126 _write_int_value`. -/
def writeIntValue (tid value : Nat) : List Nat :=
  let body := writeUInt value
  writeLength body.length tid ++ body

/-- `writer_binary_raw.py:107-111 _serialize_bool`. -/
def serializeBool (b : Bool) : List Nat := if b then [0x11] else [0x10]

/-- `writer_binary_raw.py:129-142 _serialize_int`. -/
def serializeInt (value : Int) : List Nat :=
  if value = 0 then [0x20]
  else if value < 0 then writeIntValue 0x30 value.natAbs
  else writeIntValue 0x20 value.natAbs

/-- `struct.pack('>d', x)` in terms of the bit pattern. -/
def packBE8 (bits : UInt64) : List Nat :=
  (List.range 8).map fun i => bits.toNat / 256 ^ (7 - i) % 256

/-- `writer_binary_raw.py:145-157 _serialize_float`.  A double is its bit pattern; `float_value.is_integer() and
float_value == 0.0 and not _is_float_negative_zero(float_value)` holds exactly for positive zero, bit pattern 0. -/
def serializeFloat (bits : UInt64) : List Nat :=
  if bits = 0 then [0x40] else 0x48 :: packBE8 bits

/-- `writer_binary_raw.py:160-170 _write_decimal_value`. -/
def writeDecimalValue (exponent coefficient : Int) (sign : Bool) : List Nat :=
  writeVarInt exponent ++
    (if coefficient ≠ 0 then writeInt coefficient else if sign then [0x80] else [])

/-- `writer_binary_raw.py:183-201 _serialize_decimal`. -/
def serializeDecimal (d : Dec) : Except PyErr (List Nat) := do
  let scaled ← d.scaleb (numDigits d.coeff) (-d.exp)
  let coefficient := scaled.toIntegralValue.toInt
  if ¬ d.sign ∧ d.exp = 0 ∧ coefficient = 0 then return [0x50]
  else
    let body := writeDecimalValue d.exp coefficient d.sign
    return writeLength body.length 0x50 ++ body

/-- `writer_binary_raw.py:204-214 _serialize_string`. -/
def serializeString (t : Text) : Except PyErr (List Nat) :=
  if t.isEmpty then .ok [0x80]
  else do
    let body ← Utf8.encode t
    return writeLength body.length 0x80 ++ body.map UInt8.toNat

/-- `writer_binary_raw.py:217-226 _serialize_symbol`, given the symbol ID. -/
def serializeSymbol (sid : Nat) : List Nat := if sid = 0 then [0x70] else writeIntValue 0x70 sid

/-- `writer_binary_raw.py:229-234 _serialize_lob_value` (blob: 0xA0, clob: 0x90). -/
def serializeLob (tid : Nat) (value : Bytes) : List Nat := writeLength value.length tid ++ value.map UInt8.toNat

/-- `writer_binary_raw.py:173-180 _write_timestamp_fractional_seconds`; the scaling uses the default context. -/
def writeTimestampFraction (f : Dec) : Except PyErr (List Nat) := do
  let scaled ← f.scaleb Dec.defaultPrec (-f.exp)
  let coefficient := scaled.toIntegralValue.toInt
  if coefficient = 0 ∧ f.exp ≥ 0 then return []
  else return writeDecimalValue f.exp coefficient f.sign

/-- Value of a `TIMESTAMP` event: an Ion `Timestamp` or a plain `datetime`. -/
inductive TimeVal where
  | ts (t : Timestamp)
  | dt (d : DateTime)
  deriving DecidableEq, Repr

/-- the `datetime` part -/
def TimeVal.dateTime : TimeVal → DateTime | .ts t => t.dt | .dt d => d
/-- `writer_binary_raw.py:244-246`: the precision, `SECOND` by default. -/
def TimeVal.precision : TimeVal → Precision | .ts t => t.precision.getD .second | .dt _ => .second

/-- `writer_binary_raw.py:241-277 _serialize_timestamp`, the value part.  `int(total_seconds(offset) // 60)` is the floor
of the offset in minutes. -/
def timestampBody (v : TimeVal) : Except PyErr (List Nat) := do
  let dt := v.dateTime
  let precision := v.precision
  let (offField, dt) ← (match dt.tz with
    | none => .ok ([0xC0], dt)
    | some offset => do
      let dt ← dt.addMicros (-offset)
      return (writeVarInt (offset / minuteMicros), dt) : Except PyErr (List Nat × DateTime))
  let frac ← (if precision.includesSecond then
      match v with
      | .ts t => writeTimestampFraction t.frac
      | .dt _ => .ok (writeDecimalValue (-6) dt.micro false)
    else .ok [] : Except PyErr (List Nat))
  return offField ++ writeVarUInt dt.year
    ++ (if precision.includesMonth then writeVarUInt dt.month else [])
    ++ (if precision.includesDay then writeVarUInt dt.day else [])
    ++ (if precision.includesMinute then writeVarUInt dt.hour ++ writeVarUInt dt.minute else [])
    ++ (if precision.includesSecond then writeVarUInt dt.second ++ frac else [])

/-- `writer_binary_raw.py:241-277 _serialize_timestamp`. -/
def serializeTimestamp (v : TimeVal) : Except PyErr (List Nat) := do
  let body ← timestampBody v
  return writeLength body.length 0x60 ++ body

/-! ## Parsers -/

/-- `reader_binary.py:187-204 _parse_decimal` of the remaining data.  `len(str(coefficient))` counts the minus sign. -/
def parseDecimal (buf : Bytes) : Except PyErr Dec := do
  let (exponent, rest) ← parseVar buf true
  let (signBit, coefficient) := parseSignedIntComponents rest
  let sign : Bool := signBit ≠ 0
  if coefficient = 0 then return ⟨sign, 0, exponent⟩
  else (⟨sign, coefficient, 0⟩ : Dec).scaleb (numDigits coefficient + if sign then 1 else 0) exponent

/-- Big-endian bit pattern of an 8-byte body, `unpack('>d', data)`. -/
def unpackDouble (data : Bytes) : UInt64 := UInt64.ofNat (unpackBE data)

/-- The double with the value of a single-precision bit pattern (`unpack('>f', data)`, the widening conversion of C).
NaN payloads are shifted; a platform may additionally set the quiet bit of a signalling NaN. -/
def widen (f : Nat) : Nat :=
  let s := f / 2 ^ 31
  let e := f / 2 ^ 23 % 256
  let m := f % 2 ^ 23
  s * 2 ^ 63 +
    (if e = 255 then 2047 * 2 ^ 52 + m * 2 ^ 29
     else if e = 0 then
       if m = 0 then 0
       else
         let k := m.log2
         (k + 874) * 2 ^ 52 + (m - 2 ^ k) * 2 ^ (52 - k)
     else (e + 896) * 2 ^ 52 + m * 2 ^ 29)

/-- `reader_binary.py:650-655 _float_factory(data)()`. -/
def parseFloat (data : Bytes) : Except PyErr UInt64 :=
  if data.length = 8 then .ok (unpackDouble data)
  else if data.length = 4 then .ok (UInt64.ofNat (widen (unpackBE data)))
  else .error .valueError

/-- `reader_binary.py:665-722 _timestamp_factory(data)()`. -/
def parseTimestamp (data : Bytes) : Except PyErr Timestamp := do
  let (offSign, offValue, buf) ← parseVarComponents data true
  let offMinutes : Int := offValue * offSign
  let tz ← (if offSign = -1 ∧ offMinutes = 0 then .ok none
    else do
      let d ← offsetTZInfo (offMinutes * minuteMicros)
      return some d : Except PyErr (Option Int))
  let (year, buf) ← parseVarLoop 0 buf
  let (month, precision, buf) ← (if buf.isEmpty then .ok (1, .year, buf)
    else do
      let (v, buf) ← parseVarLoop 0 buf
      return (v, .month, buf) : Except PyErr (Nat × Precision × Bytes))
  let (day, precision, buf) ← (if buf.isEmpty then .ok (1, precision, buf)
    else do
      let (v, buf) ← parseVarLoop 0 buf
      return (v, .day, buf) : Except PyErr (Nat × Precision × Bytes))
  let (hour, minute, precision, buf) ← (if buf.isEmpty then .ok (0, 0, precision, buf)
    else do
      let (h, buf) ← parseVarLoop 0 buf
      let (m, buf) ← parseVarLoop 0 buf
      return (h, m, .minute, buf) : Except PyErr (Nat × Nat × Precision × Bytes))
  let (second, precision, buf) ← (if buf.isEmpty then .ok (0, precision, buf)
    else do
      let (v, buf) ← parseVarLoop 0 buf
      return (v, .second, buf) : Except PyErr (Nat × Precision × Bytes))
  let fraction ← (if buf.isEmpty then .ok none
    else do
      let f ← parseDecimal buf
      return if f.coeff = 0 ∧ f.exp > -1 then none else some f : Except PyErr (Option Dec))
  Timestamp.adjustFromUtcFields
    { year := year, month := month, day := day, hour := hour, minute := minute, second := second, micro := none, tz := tz,
      precision := some precision, fracPrecision := none, frac := fraction }

/-- `reader_binary.py:725-732 _symbol_factory(data)()`: the symbol ID. -/
def parseSymbol (data : Bytes) : Int := parseInt 1 data

end Ion.Scalars
