/-!
# Basic vocabulary of the model

Python exceptions are values of `PyErr`; a Python function that may raise returns `Except PyErr α`.
-/
namespace Ion

/-- Python exceptions that the modelled code can raise.  `ionException` is
`amazon/ion/exceptions.py:23-24 IonException`, `cannotSubstitute` is `exceptions.py:27-28 CannotSubstituteTable`; the rest are
the built-in exceptions of the same name.  `modelFuel` is raised by no Python code: it marks exhaustion of a recursion
bound in the model, and it is proved unreachable where it could occur. -/
inductive PyErr where
  | ionException
  | cannotSubstitute
  | typeError
  | valueError
  | indexError
  | keyError
  | attributeError
  | assertionError
  | overflowError
  | decimalError
  | unicodeError
  | stopIteration
  | modelFuel
  deriving DecidableEq, Repr, Inhabited

/-- A `bytes`/`bytearray` object. -/
abbrev Bytes := List UInt8

/-- A Python 3 `str`: a sequence of code points (PEP 393), which may include surrogates. -/
abbrev Text := List Nat

/-- `bytearray` contents obtained by appending the given ints; `Fields.lean` proves each is `< 256`, so that
`bytearray.append` never raises `ValueError`. -/
def toBytes (l : List Nat) : Bytes := l.map UInt8.ofNat

@[simp] theorem toBytes_nil : toBytes [] = [] := rfl
@[simp] theorem toBytes_cons (a : Nat) (l : List Nat) : toBytes (a :: l) = UInt8.ofNat a :: toBytes l := rfl
@[simp] theorem toBytes_append (a b : List Nat) : toBytes (a ++ b) = toBytes a ++ toBytes b := by simp [toBytes]
@[simp] theorem toBytes_length (a : List Nat) : (toBytes a).length = a.length := by simp [toBytes]

theorem ofNat_toNat_of_lt {n : Nat} (h : n < 256) : (UInt8.ofNat n).toNat = n := by
  simp; omega

/-! Decidable equality of `Except` values is needed by concrete examples. -/
instance {ε α : Type} [DecidableEq ε] [DecidableEq α] : DecidableEq (Except ε α) := fun a b =>
  match a, b with
  | .ok x, .ok y => if h : x = y then isTrue (by rw [h]) else isFalse (by simp [h])
  | .error x, .error y => if h : x = y then isTrue (by rw [h]) else isFalse (by simp [h])
  | .ok _, .error _ => isFalse (by simp)
  | .error _, .ok _ => isFalse (by simp)

end Ion
