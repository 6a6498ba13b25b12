import Verif.Basic
/-!
# Integer fields of binary Ion

Models `amazon/ion/writer_binary_raw_fields.py` and the field parsers of `amazon/ion/reader_binary.py`.
Octets are Python ints (`Nat`) until they are stored in a `bytearray`.
-/
namespace Ion.Fields
open Ion

/-- `amazon/ion/util.py:304-305 bit_length`, i.e. `int.bit_length` of a non-negative int. -/
def bitLength (n : Nat) : Nat := if n = 0 then 0 else Nat.log2 n + 1

/-- `writer_binary_raw_fields.py:45-48 _OCTET_MASKS` (only the keys 7 and 8 exist). -/
def octetMask (bitsPerOctet : Nat) : Nat := if bitsPerOctet = 7 then 0x7F else 0xFF

/-- `writer_binary_raw_fields.py:147-185 _write_base`: the octets appended to `buf`.
The returned count of the Python function is the length of this list (the code returns `num_octets`, the number of loop
iterations, or `1`). -/
def writeBase (value bitsPerOctet : Nat) (endBit signBit : Nat := 0) (isSigned : Bool := false) : List Nat :=
  if value = 0 then [signBit ||| endBit]
  else
    let numBits := bitLength value
    let numOctets := numBits / bitsPerOctet
    let remainder := numBits % bitsPerOctet
    let p : Nat × Nat :=
      if remainder ≠ 0 || isSigned then (numOctets + 1, remainder) else (numOctets, bitsPerOctet)
    (List.range p.1).map fun i =>
      let octet := 0
      let octet := if i = 0 then octet ||| signBit else octet
      let octet := if i = p.1 - 1 then octet ||| endBit else octet
      octet ||| ((value >>> (numBits - (p.2 + bitsPerOctet * i))) &&& octetMask bitsPerOctet)

/-- `writer_binary_raw_fields.py:95-101 _write_signed_uncached`. -/
def writeSignedUncached (value : Int) (signBitMask bitsPerOctet : Nat) (endBit : Nat := 0) : List Nat :=
  let signBit := if value < 0 then signBitMask else 0
  writeBase value.natAbs bitsPerOctet endBit signBit true

/-- `writer_binary_raw_fields.py:65-67 _write_varint_uncached`. -/
def writeVarIntUncached (value : Int) : List Nat := writeSignedUncached value 0x40 7 0x80
/-- `writer_binary_raw_fields.py:84-85 _write_int_uncached`. -/
def writeIntUncached (value : Int) : List Nat := writeSignedUncached value 0x80 8
/-- `writer_binary_raw_fields.py:118-119 _write_varuint_uncached`. -/
def writeVarUIntUncached (value : Nat) : List Nat := writeBase value 7 0x80
/-- `writer_binary_raw_fields.py:136-137 _write_uint_uncached`. -/
def writeUIntUncached (value : Nat) : List Nat := writeBase value 8

/-- `writer_binary_raw_fields.py:188 _CACHE_SIZE`. -/
def cacheSize : Nat := 64
/-- `writer_binary_raw_fields.py:211-213,219 _signed_value`. -/
def signedValue (index : Nat) : Int := (index : Int) - (cacheSize / 2 : Nat)
/-- `writer_binary_raw_fields.py:216-217 _signed_index`. -/
def signedIndex (value : Int) : Nat := ((cacheSize / 2 : Nat) + value).toNat

/-- `writer_binary_raw_fields.py:231-252 _fill_cache`: the four caches are filled by appending uncached encodings. -/
def cachedInts : List Nat := (List.range cacheSize).flatMap fun i => writeIntUncached (signedValue i)
/-- see `cachedInts` -/
def cachedVarInts : List Nat := (List.range cacheSize).flatMap fun i => writeVarIntUncached (signedValue i)
/-- see `cachedInts` -/
def cachedUInts : List Nat := (List.range cacheSize).flatMap fun i => writeUIntUncached i
/-- see `cachedInts` -/
def cachedVarUInts : List Nat := (List.range cacheSize).flatMap fun i => writeVarUIntUncached i

/-- `writer_binary_raw_fields.py:88-92 _write_signed` with the `get_*` accessors of lines 254-264; indexing a
`bytearray` out of range raises, modelled by `getD _ 0` and proved in range in `Props/Fields`. -/
def writeSigned (value : Int) (cache : List Nat) (uncached : Int → List Nat) : List Nat :=
  if signedValue 0 ≤ value ∧ value < signedValue cacheSize then [cache.getD (signedIndex value) 0]
  else uncached value

/-- `writer_binary_raw_fields.py:140-144 _write_unsigned`. -/
def writeUnsigned (value : Nat) (cache : List Nat) (uncached : Nat → List Nat) : List Nat :=
  if value < cacheSize then [cache.getD value 0] else uncached value

/-- `writer_binary_raw_fields.py:51-62 _write_varint`. -/
def writeVarInt (value : Int) : List Nat := writeSigned value cachedVarInts writeVarIntUncached
/-- `writer_binary_raw_fields.py:70-81 _write_int`. -/
def writeInt (value : Int) : List Nat := writeSigned value cachedInts writeIntUncached
/-- `writer_binary_raw_fields.py:104-115 _write_varuint`. -/
def writeVarUInt (value : Nat) : List Nat := writeUnsigned value cachedVarUInts writeVarUIntUncached
/-- `writer_binary_raw_fields.py:122-133 _write_uint`. -/
def writeUInt (value : Nat) : List Nat := writeUnsigned value cachedUInts writeUIntUncached

/-! ## Parsers -/

/-- The unsigned iterations of `reader_binary.py:132-152 _parse_var_int_components` (`buf` is a `BytesIO`; the rest of
the data is returned).  At the end of the data `buf.read(1)` is `b''`, which is not `''`, so `ord(b'')` raises
`TypeError` (Python 3). -/
def parseVarLoop (value : Nat) : Bytes → Except PyErr (Nat × Bytes)
  | [] => .error .typeError
  | ch :: buf =>
    let octet := ch.toNat
    let value := (value <<< 7) ||| (octet &&& 0x7F)
    if octet &&& 0x80 ≠ 0 then .ok (value, buf) else parseVarLoop value buf

/-- `reader_binary.py:132-152 _parse_var_int_components`: sign (`1`/`-1`), magnitude, rest. -/
def parseVarComponents (buf : Bytes) (signed : Bool) : Except PyErr (Int × Nat × Bytes) :=
  if signed then
    match buf with
    | [] => .error .typeError
    | ch :: buf =>
      let octet := ch.toNat
      let sign : Int := if octet &&& 0x40 ≠ 0 then -1 else 1
      let value := octet &&& 0x3F
      if octet &&& 0x80 ≠ 0 then .ok (sign, value, buf)
      else do
        let (v, rest) ← parseVarLoop value buf
        return (sign, v, rest)
  else do
    let (v, rest) ← parseVarLoop 0 buf
    return (1, v, rest)

/-- `reader_binary.py:155-157 _parse_var_int`. -/
def parseVar (buf : Bytes) (signed : Bool) : Except PyErr (Int × Bytes) := do
  let (s, v, rest) ← parseVarComponents buf signed
  return (s * v, rest)

/-- `reader_binary.py:160-184 _parse_signed_int_components`: (sign bit, magnitude) of the remaining data. -/
def parseSignedIntComponents (buf : Bytes) : Nat × Nat :=
  match buf with
  | [] => (0, 0)
  | ch :: buf =>
    let octet := ch.toNat
    let signBit := if octet &&& 0x80 ≠ 0 then 1 else 0
    let value := octet &&& 0x7F
    (signBit, buf.foldl (fun value ch => (value <<< 8) ||| ch.toNat) value)

/-- `struct.unpack('>Q' | '>I' | '>H', segment)`: the big-endian value of the segment. -/
def unpackBE (segment : Bytes) : Nat := segment.foldl (fun v b => v * 256 + b.toNat) 0

/-- `reader_binary.py:616-621 _rslice` : `data[-rem : -rem+size]`, with the end clipped to `None` when it reaches 0.
For `size ≤ rem ≤ len(data)` this is the segment of `size` bytes that starts `rem` bytes before the end. -/
def rslice (data : Bytes) (rem size : Nat) : Bytes := (data.drop (data.length - rem)).take size

/-- The `while length >= 8` loop of `reader_binary.py:628-632`; returns (value, remaining length). -/
def intLoop8 (data : Bytes) (value length : Nat) : Nat × Nat :=
  if h : length ≥ 8 then
    intLoop8 data ((value <<< 64) ||| unpackBE (rslice data length 8)) (length - 8)
  else (value, length)
  termination_by length

/-- `reader_binary.py:624-647 _int_factory(sign, data)()`. -/
def parseInt (sign : Int) (data : Bytes) : Int :=
  let (value, length) := intLoop8 data 0 data.length
  let (value, length) :=
    if length ≥ 4 then ((value <<< 32) ||| unpackBE (rslice data length 4), length - 4) else (value, length)
  let (value, length) :=
    if length ≥ 2 then ((value <<< 16) ||| unpackBE (rslice data length 2), length - 2) else (value, length)
  let value :=
    if length = 1 then (value <<< 8) ||| ((data.getLast?.map UInt8.toNat).getD 0) else value
  sign * value

/-- `reader_binary.py:207-213 _parse_sid_iter`: parse all VarUInts of the data.  The fuel is the data length; each
iteration consumes at least one byte. -/
def parseSids : Nat → Bytes → Except PyErr (List Nat)
  | _, [] => .ok []
  | 0, _ => .error .modelFuel
  | n + 1, data => do
    let (v, rest) ← parseVarLoop 0 data
    let vs ← parseSids n rest
    return v :: vs

end Ion.Fields
