import Verif.Scalars
import Verif.FieldsLemmas
set_option linter.unusedSimpArgs false
/-!
# Lemmas about scalar bodies
-/
namespace Ion.Scalars
open Ion Ion.Fields

/-! ### Decimals -/

theorem parseVar_writeVarInt (v : Int) (rest : Bytes) :
    parseVar (toBytes (writeVarInt v) ++ rest) true = .ok (v, rest) := by
  unfold parseVar
  rw [parseVarComponents_writeVarInt]
  simp only [bind, Except.bind, pure, Except.pure, Except.ok.injEq, Prod.mk.injEq, and_true]
  split <;> omega

/-- What the reader's decimal parser does with the field the writer emits. -/
theorem parseDecimal_write (e c : Int) (s : Bool) (hs : c ≠ 0 → s = decide (c < 0)) :
    parseDecimal (toBytes (writeDecimalValue e c s)) =
      if c = 0 then .ok ⟨s, 0, e⟩
      else (⟨s, c.natAbs, 0⟩ : Dec).scaleb (numDigits c.natAbs + if s then 1 else 0) e := by
  unfold parseDecimal writeDecimalValue
  rw [toBytes_append, parseVar_writeVarInt]
  simp only [bind, Except.bind, pure, Except.pure]
  by_cases hc : c = 0
  · subst hc
    cases s <;> simp [parseSignedIntComponents]
  · rw [if_pos hc, parseSigned_writeInt, if_neg hc]
    have h1 : c.natAbs ≠ 0 := by omega
    have h2 : decide ((if c < 0 then 1 else 0) ≠ 0) = s := by
      rw [hs hc]; by_cases h : c < 0 <;> simp [h]
    simp only [h1, if_false, h2]

/-- The reader's exactness range for a coefficient and exponent. -/
def ReadRange (d : Dec) : Prop :=
  d.coeff = 0 ∨
    (-999998 - (numDigits d.coeff : Int) - (if d.sign then 1 else 0) ≤ d.exp ∧ d.exp + numDigits d.coeff ≤ 1000000)

instance (d : Dec) : Decidable (ReadRange d) := by unfold ReadRange; infer_instance

theorem scaleb_exact (d : Dec) (h0 : d.coeff ≠ 0) (h : ReadRange d) :
    (⟨d.sign, d.coeff, 0⟩ : Dec).scaleb (numDigits d.coeff + if d.sign then 1 else 0) d.exp = .ok d := by
  have hn := numDigits_pos d.coeff
  rcases h with h | ⟨h1, h2⟩
  · exact absurd h h0
  · unfold Dec.scaleb Dec.emax
    have hx : (0 : Int) ≤ (if d.sign then 1 else 0) ∧ (if d.sign then 1 else 0 : Int) ≤ 1 := by split <;> omega
    have hcast : ((numDigits d.coeff + if d.sign then 1 else 0 : Nat) : Int) =
        numDigits d.coeff + (if d.sign then 1 else 0 : Int) := by split <;> simp
    rw [if_neg (by rw [hcast]; omega)]
    simp only [Int.zero_add]
    rw [Dec.fix_id]
    · split <;> omega
    · simp only; omega
    · simp only [Dec.emin]
      have : ((numDigits d.coeff + (if d.sign then 1 else 0) - 1 : Nat) : Int) =
          numDigits d.coeff + (if d.sign then 1 else 0 : Int) - 1 := by split <;> omega
      rw [this]; omega
    · simp only [Dec.emax]; omega

/-- The scaling by the writer in precision `prec` recovers the signed coefficient. -/
theorem scaled_coefficient (prec : Nat) (d : Dec) (hp : 0 < prec) (hd : numDigits d.coeff ≤ prec)
    (hd2 : numDigits d.coeff ≤ 1000000) (he : (d.exp.natAbs : Int) ≤ 2 * (999999 + prec)) :
    ∃ s, d.scaleb prec (-d.exp) = .ok s ∧
      s.toIntegralValue.toInt = if d.sign then -(d.coeff : Int) else d.coeff := by
  refine ⟨{ d with exp := 0 }, ?_, ?_⟩
  · unfold Dec.scaleb Dec.emax
    rw [if_neg (by omega)]
    simp only [Int.add_right_neg]
    rw [Dec.fix_id]
    · exact hp
    · exact hd
    · simp only [Dec.emin]; omega
    · simp only [Dec.emax]; omega
  · simp [Dec.toIntegralValue, Dec.toInt]

theorem scaleb_error_of_exp (prec : Nat) (d : Dec) (n : Int) (h : (n.natAbs : Int) > 2 * (999999 + prec)) :
    d.scaleb prec n = .error .decimalError := by
  unfold Dec.scaleb Dec.emax
  rw [if_pos h]

end Ion.Scalars
