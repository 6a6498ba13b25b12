import Verif.Basic
/-!
# Code point iteration and memoizing thunks

Models `unicode_iter`/`_next_code_point` of `amazon/ion/util.py:189-292` and `MemoizingThunk`/`IonThunkEvent` of
`amazon/ion/core.py:252-285`.
-/
namespace Ion

/-- `util.py:189-196`, the surrogate ranges. -/
abbrev isHighSurrogate (c : Nat) : Prop := 0xD800 ≤ c ∧ c ≤ 0xDBFF
/-- see `isHighSurrogate` -/
abbrev isLowSurrogate (c : Nat) : Prop := 0xDC00 ≤ c ∧ c ≤ 0xDFFF

/-- Outcome of the first `next` on the generator `_next_code_point`. -/
inductive NextCP where
  /-- `StopIteration`: the sequence is exhausted -/
  | stop
  /-- yields `None`: the sequence ends with a high surrogate -/
  | pending
  /-- yields a code point; the iterator is left at the rest -/
  | cp (c : Nat) (rest : List Nat)
  /-- raises `ValueError` -/
  | bad
  deriving DecidableEq, Repr

/-- `util.py:231-292 _next_code_point`, up to its first yield, over the remaining code units.  The part of the generator
that resumes after yielding `None` is used by the text reader only. -/
def nextCodePoint : List Nat → NextCP
  | [] => .stop
  | high :: rest =>
    if isLowSurrogate high then .bad
    else if isHighSurrogate high then
      match rest with
      | [] => .pending
      | low :: rest =>
        if low < 0xDC00 ∨ low > 0xDFFF then .bad
        else .cp (0x10000 + ((high - 0xD800) <<< 10) + (low - 0xDC00)) rest
    else .cp high rest

theorem nextCodePoint_lt {l : List Nat} {c rest} (h : nextCodePoint l = .cp c rest) : rest.length < l.length := by
  unfold nextCodePoint at h
  split at h
  · simp at h
  · split at h
    · simp at h
    · split at h
      · split at h
        · simp at h
        · split at h
          · simp at h
          · simp at h; rw [← h.2]; simp; omega
      · simp at h; rw [← h.2]; simp

/-- `util.py:199-219 unicode_iter`: the code points yielded, and the exception that ends the iteration if any. -/
def unicodeIter (val : List Nat) : List Nat × Option PyErr :=
  match h : nextCodePoint val with
  | .stop => ([], none)
  | .pending => ([], some .valueError)
  | .bad => ([], some .valueError)
  | .cp c rest =>
    have := nextCodePoint_lt h
    let r := unicodeIter rest
    (c :: r.1, r.2)
termination_by val.length

/-! ## Thunks -/

/-- Thunk objects `core.py:252-267 MemoizingThunk` that share one underlying delegate.  A thunk's delegate is either the
decoding function itself (`parent = none`) or another thunk: the `derive_*` methods of an `IonThunkEvent`
(`core.py:171-249`, `cls(self[0], self[1], self[2], …)` and lines 272-285) wrap the existing thunk in a new one. -/
structure ThunkCell (α : Type) where
  parent : Option Nat
  value : Option α := none

/-- Thunks, and the number of times the underlying delegate has been invoked. -/
structure ThunkState (α : Type) where
  cells : List (ThunkCell α)
  calls : Nat := 0

namespace ThunkState
variable {α : Type}

/-- `core.py:257-261 MemoizingThunk.__call__` on thunk `i`.  `delegate n` is the outcome of the `n`-th invocation of the
underlying function (it may raise, and may behave differently every time).  Thunks only wrap older thunks. -/
def call (delegate : Nat → Except PyErr α) (s : ThunkState α) (i : Nat) : Except PyErr α × ThunkState α :=
  match s.cells[i]? with
  | none => (.error .attributeError, s)
  | some c =>
    match c.value with
    | some v => (.ok v, s)
    | none =>
      let r : Except PyErr α × ThunkState α :=
        match c.parent with
        | none => (delegate s.calls, { s with calls := s.calls + 1 })
        | some j => if _h : j < i then call delegate s j else (.error .modelFuel, s)
      match r with
      | (.ok v, s') => (.ok v, { s' with cells := s'.cells.modify i fun c => { c with value := some v } })
      | (.error e, s') => (.error e, s')
termination_by i

/-- `core.py:171-188` etc.: `event.derive_*`: a new thunk around thunk `i`. -/
def derive (s : ThunkState α) (i : Nat) : ThunkState α := { s with cells := s.cells ++ [{ parent := some i }] }

end ThunkState
end Ion
