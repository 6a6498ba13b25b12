import Verif.Basic
/-!
# The reader's input buffer

Models `BufferQueue` of `amazon/ion/reader.py:117-280` (Python 3).  The element type `α` is a byte for the binary reader
and, for the text reader, a code point or the end-of-file marker: `mark_eof` (lines 150-152) appends the one-element
segment `_EOF` and adds 1 to the size, so it is `extend` with the end-of-file element.
`__size` and `position` are Python ints that the code can drive below zero (a negative `length` passes the guard of
`read`), hence `Int`.
-/
namespace Ion

/-- `reader.py:119-132 BufferQueue.__init__`: the fields `__segments`, `__offset`, `__size`, `position`. -/
structure BufferQueue (α : Type) where
  segments : List (List α) := []
  offset : Nat := 0
  size : Int := 0
  position : Int := 0
  deriving Repr, DecidableEq

namespace BufferQueue
variable {α : Type}

/-- `reader.py:119-132`: a new queue. -/
def empty : BufferQueue α := {}

/-- `reader.py:142-148 extend` (the data has the right element type by construction). -/
def extend (q : BufferQueue α) (data : List α) : BufferQueue α :=
  { q with segments := q.segments ++ [data], size := q.size + data.length }

/-- The `while length > 0` loop of `reader.py:165-195 read`.  Each iteration pops the first segment, or it is the last
iteration; hence structural recursion on the segments.  `segments[0]` of an empty deque raises `IndexError`.
Arguments: the segments, the local `offset`, `length`, `skip`, `data`; result: data, segments, `self.__offset`. -/
def readLoop : List (List α) → Nat → Nat → Bool → List α → Except PyErr (List α × List (List α) × Nat)
  | [], offset, length, _, data => if length = 0 then .ok (data, [], offset) else .error .indexError
  | segment :: segments, offset, length, skip, data =>
    if length = 0 then .ok (data, segment :: segments, offset)
    else
      let segmentOff := offset
      let segmentLen := segment.length
      let segmentRem := segmentLen - segmentOff
      let segmentReadLen := min segmentRem length
      let whole := segmentOff = 0 ∧ segmentReadLen = segmentRem
      let slice := if skip then [] else if whole then segment else (segment.drop segmentOff).take segmentReadLen
      let segmentOff := segmentOff + segmentReadLen
      if segmentOff = segmentLen then
        -- the segment is popped and `self.__offset = 0`; the local `offset` is 0 in both branches
        if length ≤ segmentRem ∧ data.length = 0 then .ok (slice, segments, 0)
        else readLoop segments 0 (length - segmentReadLen) skip (data ++ slice)
      else
        -- `segmentReadLen = length`: this is the last iteration and `self.__offset = segment_off`
        .ok (data ++ slice, segment :: segments, segmentOff)

/-- `reader.py:154-199 read`.  A negative `length` skips the loop but still updates `position` and `__size`. -/
def read (q : BufferQueue α) (length : Int) (skip : Bool := false) : Except PyErr (List α × BufferQueue α) :=
  if length > q.size then .error .indexError
  else do
    let (data, segs, off) ← readLoop q.segments q.offset length.toNat skip []
    return (data, { segments := segs, offset := off, size := q.size - length, position := q.position + length })

/-- `reader.py:201-219 read_byte`.  `six.indexbytes(segment, offset)` raises `IndexError` on an empty segment. -/
def readByte (q : BufferQueue α) : Except PyErr (α × BufferQueue α) :=
  if q.size < 1 then .error .indexError
  else match q.segments with
    | [] => .error .indexError
    | segment :: segments =>
      match segment[q.offset]? with
      | none => .error .indexError
      | some octet =>
        let offset := q.offset + 1
        if offset = segment.length then
          .ok (octet, { segments := segments, offset := 0, size := q.size - 1, position := q.position + 1 })
        else
          .ok (octet, { q with offset := offset, size := q.size - 1, position := q.position + 1 })

/-- `reader.py:221-259 unread` for one code unit.  When the first segment is partly read the unread element must equal
the one before the offset, otherwise `ValueError` — raised after `__offset` has been decremented, so that the second
component is the state the object is left in. -/
def unread [DecidableEq α] (q : BufferQueue α) (c : α) : Except PyErr Unit × BufferQueue α :=
  if q.position < 1 then (.error .indexError, q)
  else if q.offset = 0 then
    (.ok (), { q with segments := [c] :: q.segments, size := q.size + 1, position := q.position - 1 })
  else
    let off := q.offset - 1
    match q.segments with
    | [] => (.error .indexError, { q with offset := off })
    | segment :: _ =>
      match segment[off]? with
      | none => (.error .indexError, { q with offset := off })
      | some existing =>
        if existing ≠ c then (.error .valueError, { q with offset := off })
        else (.ok (), { q with offset := off, size := q.size + 1, position := q.position - 1 })

/-- `reader.py:261-273 skip`: the number of elements still to be skipped, and the new state. -/
def skip (q : BufferQueue α) (length : Int) : Except PyErr (Int × BufferQueue α) :=
  if length ≥ q.size then
    .ok (length - q.size, { segments := [], offset := 0, size := 0, position := q.position + q.size })
  else do
    let (_, q') ← q.read length true
    return (0, q')

end BufferQueue
end Ion
