import Verif.Simple
import Verif.Utf8
import Verif.TextWriter
import Verif.TextReader
/-!
# `dump` and `load` with Ion text

Models `amazon/ion/simpleion.py:48-159`, `234-295`, `298-453` for `binary=False` and for input that is not binary; the
rest is in `Simple.lean`.
-/
namespace Ion.Simple
open Ion

/-- `simpleion.py:147-159 dump` with `binary=False`: what is written to `fp` (the numbers of bytes), and the outcome. -/
def dumpText (F : FloatText) (indent : Option Text) (omitVersionMarker sequenceAsStream tupleAsSexp : Bool) (o : PyObj) :
    List Nat × Except PyErr Unit :=
  match TextWriter.checkIndent indent with
  | .error err => ([], .error err)
  | .ok ind =>
    let sent := Sent.andThen (if omitVersionMarker then [] else [ION_VERSION_MARKER_EVENT], none) (dumpElems tupleAsSexp 0 (topLevel sequenceAsStream o))
    match TextWriter.runText F ind {} sent.1 with
    | (out, .error err) => (out, .error err)
    | (out, .ok s) => match sent.2 with
      | some err => (out, .error err)
      | none => match TextWriter.runText F ind s [ION_STREAM_END_EVENT] with
        | (out', .error err) => (out ++ out', .error err)
        | (out', .ok _) => (out ++ out', .ok ())

/-- `simpleion.py:234-295 dumps` with `binary=False`: the bytes are decoded as UTF-8. -/
def dumpsText (F : FloatText) (indent : Option Text) (omitVersionMarker sequenceAsStream tupleAsSexp : Bool) (o : PyObj) : Except PyErr Text :=
  match dumpText F indent omitVersionMarker sequenceAsStream tupleAsSexp o with
  | (_, .error err) => .error err
  | (out, .ok ()) => Utf8.decode (out.map UInt8.ofNat)

/-- A file: the pieces that `read` returns, of `bytes` or of `str` (`simpleion.py:46 _TEXT_TYPES`). -/
inductive File where
  | bytes (cs : List Bytes)
  | str (ps : List Text)

/-- `simpleion.py:298-371 load` when the text reader is chosen. -/
def loadText (F : FloatText) (units : Bytes → List Nat) (catalog : Catalog) (singleValue : Bool) (cs : List Bytes) : Option (Except PyErr (List PyObj)) :=
  loadFrom (ManagedReader.send (TextReader.send F units)) singleValue (.active (.live .fresh { catalog := catalog } none) cs)

/-- `simpleion.py:298-371 load`: the values (a single one with `single_value`); `none` if it does not end. -/
def load (F : FloatText) (catalog : Catalog) (singleValue : Bool) : File → Option (Except PyErr (List PyObj))
  | .str ps => loadText F TextReader.strUnits catalog singleValue (ps.map TextReader.strBytes)
  | .bytes cs => match formatOf false cs.flatten with
    | .binary => loadBinary catalog singleValue cs
    | .text => loadText F TextReader.byteUnits catalog singleValue cs

/-- What `read(size)` returns, again and again, on a `StringIO` with the given contents. -/
def strPieces (size : Nat) (t : Text) : List Text :=
  if h : t = [] ∨ size = 0 then [] else t.take size :: strPieces size (t.drop size)
termination_by t.length
decreasing_by
  simp only [not_or] at h
  have : 0 < t.length := List.length_pos_iff.2 h.1
  simp only [List.length_drop]
  omega

/-- `simpleion.py:415-453 loads` of `bytes`. -/
def loadsBytes (F : FloatText) (catalog : Catalog) (singleValue : Bool) (doc : Bytes) : Option (Except PyErr (List PyObj)) :=
  load F catalog singleValue (.bytes (pieces BUFFER_SIZE doc))

/-- `simpleion.py:415-453 loads` of `str`. -/
def loadsStr (F : FloatText) (catalog : Catalog) (singleValue : Bool) (t : Text) : Option (Except PyErr (List PyObj)) :=
  load F catalog singleValue (.str (strPieces BUFFER_SIZE t))

end Ion.Simple
