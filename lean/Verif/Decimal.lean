import Verif.Basic
/-!
# Python's `decimal` module

Part of the model of the runtime: finite `decimal.Decimal` values and the operations that the repository uses, following
Python's `decimal` specification (`Lib/_pydecimal.py`: `Decimal._fix`, `scaleb`, `__mul__`).  The contexts used by the
repository are the default context and `localcontext()` copies with another precision: rounding is half-even, `Emax =
999999`, `Emin = -999999`, `clamp = 0`; `InvalidOperation`, `DivisionByZero` and `Overflow` are trapped, `Inexact`,
`Underflow`, `Clamped` are not.  The absolute limits of libmpdec (exponents beyond about ±10^18, precision beyond 10^18)
are not modelled.
-/
namespace Ion

/-- A finite `decimal.Decimal`: `(-1)^sign * coeff * 10^exp`. -/
structure Dec where
  sign : Bool
  coeff : Nat
  exp : Int
  deriving DecidableEq, Repr, Inhabited

/-- Number of decimal digits of the coefficient, `len(as_tuple().digits)`; 1 for zero. -/
def numDigits (n : Nat) : Nat := if n < 10 then 1 else numDigits (n / 10) + 1
termination_by n

namespace Dec

/-- `Emax` of the default context. -/
def emax : Int := 999999
/-- `Emin` of the default context. -/
def emin : Int := -999999
/-- `prec` of the default context. -/
def defaultPrec : Nat := 28

/-- Division of `n` by `10^k` rounded half to even. -/
def roundHalfEven (n k : Nat) : Nat :=
  let q := n / 10 ^ k
  let r := n % 10 ^ k
  if 2 * r > 10 ^ k ∨ (2 * r = 10 ^ k ∧ q % 2 = 1) then q + 1 else q

/-- `Decimal._fix(context)` with precision `prec`: the finalisation of every operation.  Overflow is trapped. -/
def fix (prec : Nat) (d : Dec) : Except PyErr Dec :=
  let etiny := emin - (prec - 1 : Nat)
  let etop := emax - (prec - 1 : Nat)
  if d.coeff = 0 then
    .ok { d with exp := min (max d.exp etiny) emax }
  else
    let expMin := (numDigits d.coeff : Int) + d.exp - prec
    if expMin > etop then .error .decimalError
    else
      let expMin := if expMin < etiny then etiny else expMin
      if d.exp < expMin then
        let c := roundHalfEven d.coeff (expMin - d.exp).toNat
        let (c, expMin) := if numDigits c > prec then (c / 10, expMin + 1) else (c, expMin)
        if expMin > etop then .error .decimalError
        else .ok ⟨d.sign, c, expMin⟩
      else .ok d

/-- `self.scaleb(other)` in a context of precision `prec`.  `InvalidOperation` is trapped. -/
def scaleb (prec : Nat) (d : Dec) (n : Int) : Except PyErr Dec :=
  if (n.natAbs : Int) > 2 * (emax + prec) then .error .decimalError
  else fix prec { d with exp := d.exp + n }

/-- `int(self)`: truncation towards zero. -/
def toInt (d : Dec) : Int :=
  let m : Nat := if d.exp ≥ 0 then d.coeff * 10 ^ d.exp.toNat else d.coeff / 10 ^ (-d.exp).toNat
  if d.sign then -(m : Int) else m

/-- `self.to_integral_value()` of a value with `exp ≥ 0` is the value itself; the repository applies it only after
scaling the exponent to zero.  Values with a negative exponent are rounded half-even. -/
def toIntegralValue (d : Dec) : Dec :=
  if d.exp ≥ 0 then d else ⟨d.sign, roundHalfEven d.coeff (-d.exp).toNat, 0⟩

/-- `self * Decimal(10**6)` or `self * 10**6` in the default context. -/
def mulMillion (d : Dec) : Except PyErr Dec := fix defaultPrec { d with coeff := 1000000 * d.coeff }

/-- `Decimal(n)` of an int, exact. -/
def ofInt (n : Int) : Dec := ⟨n < 0, n.natAbs, 0⟩

/-- `Decimal(0)`, `core.py:381 DECIMAL_ZERO`. -/
def zero : Dec := ⟨false, 0, 0⟩

/-- `0 <= self < 1`. -/
def inUnit (d : Dec) : Bool :=
  (d.coeff = 0 || !d.sign) && (if d.exp ≥ 0 then d.coeff = 0 else d.coeff < 10 ^ (-d.exp).toNat)

end Dec

theorem numDigits_pos (n : Nat) : 0 < numDigits n := by unfold numDigits; split <;> omega

theorem lt_pow_numDigits (n : Nat) : n < 10 ^ numDigits n := by
  induction n using Nat.strongRecOn with
  | _ n ih =>
    unfold numDigits
    split
    · simpa
    · have := ih (n / 10) (by omega)
      rw [Nat.pow_succ]
      omega

theorem pow_le_of_numDigits (n : Nat) (h : n ≠ 0) : 10 ^ (numDigits n - 1) ≤ n := by
  induction n using Nat.strongRecOn with
  | _ n ih =>
    unfold numDigits
    split
    · simp; omega
    · have := ih (n / 10) (by omega) (by omega)
      have hp := numDigits_pos (n / 10)
      rw [show numDigits (n / 10) + 1 - 1 = (numDigits (n / 10) - 1) + 1 by omega, Nat.pow_succ]
      omega

theorem numDigits_le_iff (n k : Nat) (hk : 0 < k) : numDigits n ≤ k ↔ n < 10 ^ k := by
  constructor
  · intro h
    exact Nat.lt_of_lt_of_le (lt_pow_numDigits n) (Nat.pow_le_pow_right (by omega) h)
  · intro h
    by_cases h0 : n = 0
    · subst h0; unfold numDigits; simp; omega
    · apply Classical.byContradiction
      intro hn
      have h1 := pow_le_of_numDigits n h0
      have h2 : 10 ^ k ≤ 10 ^ (numDigits n - 1) := Nat.pow_le_pow_right (by omega) (by omega)
      omega

namespace Dec
/-- Finalisation leaves a value alone when its digits fit and its exponent is in range. -/
theorem fix_id (prec : Nat) (d : Dec) (hp : 0 < prec) (hd : numDigits d.coeff ≤ prec)
    (hlo : emin - (prec - 1 : Nat) ≤ d.exp) (hhi : d.exp + numDigits d.coeff - 1 ≤ emax) : d.fix prec = .ok d := by
  have hn := numDigits_pos d.coeff
  unfold fix
  by_cases h0 : d.coeff = 0
  · simp only [h0, if_true]
    rw [h0] at hhi
    have : numDigits 0 = 1 := by unfold numDigits; simp
    rw [this] at hhi
    rw [Int.max_eq_left (by omega), Int.min_eq_left (by omega)]
    cases d
    simp_all
  · simp only [h0, if_false]
    rw [if_neg (by omega)]
    split
    · rw [if_neg (by omega)]
    · rw [if_neg (by omega)]

theorem numDigits_zero : numDigits 0 = 1 := by unfold numDigits; simp
end Dec

end Ion
