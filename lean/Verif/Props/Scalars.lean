import Verif.TimestampCodec
import Verif.Props.Fields
set_option linter.unusedSimpArgs false
/-!
# Properties C05–C08 and C33: decimals, strings and lobs, floats, timestamps

The specification follows the Ion 1.0 binary encoding: a value is a type descriptor with a length and a body of exactly
that length; what a body denotes is defined per type.
-/
namespace Ion.Scalars.Spec
open Ion Ion.Fields.Spec

/-- `bs` is a value with type code `tid` and body `body`: the low nibble is the length, or 14 and a VarUInt length. -/
inductive Framed (tid : Nat) : Bytes → Bytes → Prop
  | short (h : UInt8) (body : Bytes) : body.length < 14 → h.toNat = tid * 16 + body.length → Framed tid (h :: body) body
  | long (h : UInt8) (len body : Bytes) : h.toNat = tid * 16 + 14 → IsVarUInt len body.length →
      Framed tid (h :: (len ++ body)) body

/-- A decimal body: empty for `0d0`; otherwise a VarInt exponent followed by an Int coefficient (absent for a positive
zero). -/
def IsDecimalBody (body : Bytes) (d : Dec) : Prop :=
  (body = [] ∧ d = ⟨false, 0, 0⟩) ∨
  ∃ ef cf neg n, body = ef ++ cf ∧ IsVarInt ef neg n ∧ d.exp = (if neg then -(n : Int) else n) ∧
    ((cf = [] ∧ d.coeff = 0 ∧ d.sign = false) ∨ IsInt cf d.sign d.coeff)

/-- Exact value of a finite double's bit pattern, in units of 2^-1074. -/
def doubleMagnitude (b : Nat) : Nat :=
  let e := b / 2 ^ 52 % 2048
  let m := b % 2 ^ 52
  if e = 0 then m else (2 ^ 52 + m) * 2 ^ (e - 1)

/-- Exact value of a finite single's bit pattern, in units of 2^-149. -/
def singleMagnitude (b : Nat) : Nat :=
  let e := b / 2 ^ 23 % 256
  let m := b % 2 ^ 23
  if e = 0 then m else (2 ^ 23 + m) * 2 ^ (e - 1)

/-- `r` agrees with `t` in everything that `t`'s precision includes: precision, offset, fields, and fractional seconds
with the same number of digits. -/
structure SameAtPrecision (t r : Timestamp) : Prop where
  precision : r.precision = some (t.precision.getD .second)
  offset : r.dt.tz = t.dt.tz
  year : r.dt.year = t.dt.year
  month : (t.precision.getD .second).includesMonth = true → r.dt.month = t.dt.month
  day : (t.precision.getD .second).includesDay = true → r.dt.day = t.dt.day
  hour : (t.precision.getD .second).includesMinute = true → r.dt.hour = t.dt.hour
  minute : (t.precision.getD .second).includesMinute = true → r.dt.minute = t.dt.minute
  second : (t.precision.getD .second).includesSecond = true → r.dt.second = t.dt.second
  micro : (t.precision.getD .second).includesSecond = true → r.dt.micro = t.dt.micro
  fraction : (t.precision.getD .second).includesSecond = true → r.frac = t.frac
  fractionDigits : (t.precision.getD .second).includesSecond = true → r.fracPrecision = t.fracPrecision

end Ion.Scalars.Spec

namespace Ion.Scalars
open Ion Ion.Fields Ion.Fields.Spec Spec

/-! ### Framing -/

/-- Every header the writer puts in front of a scalar body frames exactly that body. -/
theorem framed_writeLength (tid : Nat) (ht : tid < 16) (body : List Nat) :
    Framed tid (toBytes (writeLength body.length (tid * 16) ++ body)) (toBytes body) := by
  unfold writeLength
  have hor : ∀ x, x < 16 → (tid * 16) ||| x = tid * 16 + x := by
    intro x hx
    have := Nat.two_pow_add_eq_or_of_lt (i := 4) hx tid
    rw [Nat.mul_comm]; simpa using this.symm
  split
  · rename_i h
    rw [hor _ (by omega)]
    refine .short _ _ (by simpa using h) ?_
    rw [ofNat_toNat_of_lt (by omega)]; simp
  · rename_i h
    rw [hor _ (by omega)]
    simp only [List.cons_append, toBytes_cons, toBytes_append]
    refine .long _ _ _ ?_ ?_
    · rw [ofNat_toNat_of_lt (by omega)]
    · have := (C01_varuint body.length []).1
      simpa using this

theorem toBytes_map_toNat (b : Bytes) : toBytes (b.map UInt8.toNat) = b := by
  induction b with
  | nil => rfl
  | cons a l ih => simp [toBytes] at *; exact ih

/-! ## C05 — decimals -/

/-- **C05** When the writer accepts a decimal, the bytes denote exactly that decimal: same sign (negative zero
included), same coefficient, same exponent, whatever the number of digits. -/
theorem C05_writer_exact (d : Dec) (bs : List Nat) (h : serializeDecimal d = .ok bs) :
    ∃ body, Framed 5 (toBytes bs) body ∧ IsDecimalBody body d ∧ (body = [] → toBytes bs = [0x50]) := by
  unfold serializeDecimal at h
  cases hs : d.scaleb (numDigits d.coeff) (-d.exp) with
  | error e => rw [hs] at h; simp [bind, Except.bind] at h
  | ok s =>
    have hexp : ((-d.exp).natAbs : Int) ≤ 2 * (999999 + numDigits d.coeff) := by
      apply Classical.byContradiction
      intro hc
      rw [scaleb_error_of_exp _ _ _ (by omega)] at hs
      cases hs
    have hdig : numDigits d.coeff ≤ 1000000 := by
      apply Classical.byContradiction
      intro hc
      unfold Dec.scaleb Dec.emax at hs
      rw [if_neg (by omega)] at hs
      simp only [Int.add_right_neg] at hs
      unfold Dec.fix at hs
      have h0 : d.coeff ≠ 0 := by
        intro h0; rw [h0] at hc; simp [Dec.numDigits_zero] at hc
      simp only [h0, if_false] at hs
      rw [if_pos (by unfold Dec.emax; omega)] at hs
      cases hs
    obtain ⟨s', hs', hc⟩ := scaled_coefficient (numDigits d.coeff) d (numDigits_pos _) (Nat.le_refl _) hdig (by omega)
    rw [hs'] at hs
    simp only [Except.ok.injEq] at hs
    subst hs
    rw [hs'] at h
    simp only [bind, Except.bind, pure, Except.pure, hc] at h
    by_cases hz : ¬ d.sign = true ∧ d.exp = 0 ∧ (if d.sign = true then -(d.coeff : Int) else d.coeff) = 0
    · rw [if_pos hz] at h
      simp only [Except.ok.injEq] at h
      subst h
      refine ⟨[], .short 0x50 [] (by simp) (by decide), .inl ⟨rfl, ?_⟩, fun _ => rfl⟩
      obtain ⟨h1, h2, h3⟩ := hz
      simp only [h1, if_false, Bool.false_eq_true] at h3
      cases d; simp_all
    · rw [if_neg hz] at h
      simp only [Except.ok.injEq] at h
      subst h
      have hve := (C01_varint d.exp []).1
      refine ⟨_, framed_writeLength 5 (by omega) _, .inr ?_, ?_⟩
      rotate_left
      · intro hb
        exfalso
        unfold writeDecimalValue at hb
        rw [toBytes_append] at hb
        obtain ⟨-, b, r, hbr, -⟩ := hve
        rw [hbr] at hb
        simp at hb
      unfold writeDecimalValue
      refine ⟨toBytes (writeVarInt d.exp), _, _, _, toBytes_append _ _, hve, ?_, ?_⟩
      · by_cases hn : d.exp < 0 <;> simp [hn] <;> omega
      · by_cases h0 : d.coeff = 0
        · have hif : (if d.sign = true then -(d.coeff : Int) else (d.coeff : Int)) = 0 := by rw [h0]; simp
          rw [hif]
          cases hsg : d.sign with
          | false => left; simp [h0]
          | true =>
            right
            simp only [ne_eq, not_true_eq_false, if_false, if_true]
            exact ⟨0x80, [], rfl, by decide, by rw [h0]; decide⟩
        · have hne : (if d.sign = true then -(d.coeff : Int) else (d.coeff : Int)) ≠ 0 := by split <;> omega
          rw [if_pos hne]
          right
          have := (C01_int (if d.sign = true then -(d.coeff : Int) else (d.coeff : Int))).1
          have h1 : decide ((if d.sign = true then -(d.coeff : Int) else (d.coeff : Int)) < 0) = d.sign := by
            cases d.sign <;> simp <;> omega
          have h2 : (if d.sign = true then -(d.coeff : Int) else (d.coeff : Int)).natAbs = d.coeff := by
            split <;> omega
          rw [h1, h2] at this
          exact this

/-- **C05** The writer accepts a decimal exactly if it has at most a million digits and its exponent is within twice the
decimal context's limit; otherwise it raises and writes nothing. -/
theorem C05_writer_accepts (d : Dec) :
    (∃ bs, serializeDecimal d = .ok bs) ↔
      numDigits d.coeff ≤ 1000000 ∧ (d.exp.natAbs : Int) ≤ 2 * (999999 + numDigits d.coeff) := by
  constructor
  · rintro ⟨bs, h⟩
    unfold serializeDecimal at h
    cases hs : d.scaleb (numDigits d.coeff) (-d.exp) with
    | error e => rw [hs] at h; simp [bind, Except.bind] at h
    | ok s =>
      have hexp : (d.exp.natAbs : Int) ≤ 2 * (999999 + numDigits d.coeff) := by
        apply Classical.byContradiction
        intro hc
        rw [scaleb_error_of_exp _ _ _ (by omega)] at hs
        cases hs
      refine ⟨?_, hexp⟩
      apply Classical.byContradiction
      intro hc
      unfold Dec.scaleb Dec.emax at hs
      rw [if_neg (by omega)] at hs
      simp only [Int.add_right_neg] at hs
      unfold Dec.fix at hs
      have h0 : d.coeff ≠ 0 := by
        intro h0; rw [h0] at hc; simp [Dec.numDigits_zero] at hc
      simp only [h0, if_false] at hs
      rw [if_pos (by unfold Dec.emax; omega)] at hs
      cases hs
  · rintro ⟨h1, h2⟩
    obtain ⟨s', hs', hc⟩ := scaled_coefficient (numDigits d.coeff) d (numDigits_pos _) (Nat.le_refl _) h1 h2
    unfold serializeDecimal
    simp only [hs', bind, Except.bind, pure, Except.pure]
    split <;> exact ⟨_, rfl⟩

/-- **C05** Reading any decimal body (also with padded or non-minimal fields) gives exactly the decimal it denotes, as
long as its adjusted exponent is at most 999999 and its exponent does not underflow. -/
theorem C05_reader_exact (body : Bytes) (d : Dec) (hne : body ≠ []) (h : IsDecimalBody body d) (hr : ReadRange d) :
    parseDecimal body = .ok d := by
  rcases h with ⟨h, -⟩ | ⟨ef, cf, neg, n, rfl, hef, hexp, hcf⟩
  · exact absurd h hne
  · unfold parseDecimal parseVar
    rw [C04_parse_varint ef neg n cf hef]
    simp only [bind, Except.bind, pure, Except.pure]
    have hx : (if neg = true then -1 else 1 : Int) * (n : Int) = d.exp := by
      rw [hexp]; split <;> omega
    rw [hx]
    rcases hcf with ⟨rfl, h1, h2⟩ | hcf
    · simp only [parseSignedIntComponents, if_true]
      cases d; simp_all
    · rw [C04_parse_signed cf d.sign d.coeff hcf]
      have hsg : decide ((if d.sign = true then 1 else 0) ≠ 0) = d.sign := by cases d.sign <;> rfl
      simp only [hsg]
      by_cases h0 : d.coeff = 0
      · rw [if_pos h0]
        cases d; simp_all
      · rw [if_neg h0]
        exact scaleb_exact d h0 hr

/-- **C05** (partial: the statement of C05 for every decimal that fits the decimal context's exponent limits; see
`C05_underflow_alters_value` for what happens outside)  A finite decimal of up to a million digits is written, and what
is read back has the same sign, coefficient and exponent. -/
theorem C05_roundtrip_partial (d : Dec) (hr : ReadRange d) (hd : numDigits d.coeff ≤ 1000000)
    (he : d.coeff = 0 → d.exp.natAbs ≤ 2000000) :
    ∃ bs body, serializeDecimal d = .ok bs ∧ Framed 5 (toBytes bs) body ∧
      (if body = [] then d = ⟨false, 0, 0⟩ else parseDecimal body = .ok d) := by
  have hacc : (∃ bs, serializeDecimal d = .ok bs) := by
    rw [C05_writer_accepts]
    refine ⟨hd, ?_⟩
    have := numDigits_pos d.coeff
    rcases hr with h0 | ⟨h1, h2⟩
    · have := he h0; omega
    · split at h1 <;> omega
  obtain ⟨bs, hbs⟩ := hacc
  obtain ⟨body, hf, hb, -⟩ := C05_writer_exact d bs hbs
  refine ⟨bs, body, hbs, hf, ?_⟩
  split
  · rename_i hemp
    rcases hb with ⟨-, h⟩ | ⟨ef, cf, neg, n, hbe, hef, -⟩
    · exact h
    · exfalso
      rw [hemp] at hbe
      have : ef = [] := (List.append_eq_nil_iff.1 hbe.symm).1
      obtain ⟨-, b, r, h, -⟩ := hef
      rw [this] at h; cases h
  · rename_i hemp
    exact C05_reader_exact body d hemp hb hr

example : ReadRange ⟨true, 123456789012345678901234567890, -17⟩ ∧
    numDigits (⟨true, 123456789012345678901234567890, -17⟩ : Dec).coeff ≤ 1000000 := by
  constructor
  · have : numDigits 123456789012345678901234567890 = 30 := by decide +kernel
    right; simp only [this, if_true]; omega
  · have : numDigits 123456789012345678901234567890 = 30 := by decide +kernel
    simp only [this]; omega

/-- What the reader computes. -/
theorem parse_scaleb (body : Bytes) (d : Dec) (h : IsDecimalBody body d) (h0 : d.coeff ≠ 0) :
    parseDecimal body = (⟨d.sign, d.coeff, 0⟩ : Dec).scaleb (numDigits d.coeff + if d.sign then 1 else 0) d.exp := by
  rcases h with ⟨-, rfl⟩ | ⟨ef, cf, neg, n, rfl, hef, hexp, hcf⟩
  · exact absurd rfl h0
  · unfold parseDecimal parseVar
    rw [C04_parse_varint ef neg n cf hef]
    simp only [bind, Except.bind, pure, Except.pure]
    have hx : (if neg = true then -1 else 1 : Int) * (n : Int) = d.exp := by
      rw [hexp]; split <;> omega
    rw [hx]
    rcases hcf with ⟨rfl, h1, h2⟩ | hcf
    · exact absurd h1 h0
    · rw [C04_parse_signed cf d.sign d.coeff hcf]
      have hsg : decide ((if d.sign = true then 1 else 0) ≠ 0) = d.sign := by cases d.sign <;> rfl
      simp only [hsg]
      rw [if_neg h0]

/-- `c` is `n` divided by `10^k`, rounded to the nearest; halves to the even neighbour. -/
def Nearest (n k c : Nat) : Prop := 2 * n ≤ 10 ^ k * (2 * c + 1) ∧ 10 ^ k * (2 * c) ≤ 2 * n + 10 ^ k ∧ (2 * n = 10 ^ k * (2 * c + 1) ∨ 10 ^ k * (2 * c) = 2 * n + 10 ^ k → c % 2 = 0)

theorem nearest_roundHalfEven (n k : Nat) : Nearest n k (Dec.roundHalfEven n k) := by
  unfold Nearest Dec.roundHalfEven
  have hd := Nat.div_add_mod n (10 ^ k)
  have hr := Nat.mod_lt n (show 0 < 10 ^ k from Nat.pow_pos (by omega))
  dsimp only
  generalize n / 10 ^ k = q at *
  generalize n % 10 ^ k = r at *
  generalize 10 ^ k = t at *
  have e1 : t * (2 * q + 1) = 2 * (t * q) + t := by rw [Nat.mul_add, Nat.mul_left_comm]; omega
  have e2 : t * (2 * q) = 2 * (t * q) := Nat.mul_left_comm ..
  have e3 : t * (2 * (q + 1) + 1) = 2 * (t * q) + 3 * t := by rw [Nat.mul_add, Nat.mul_left_comm, Nat.mul_add]; omega
  have e4 : t * (2 * (q + 1)) = 2 * (t * q) + 2 * t := by rw [Nat.mul_left_comm, Nat.mul_add]; omega
  generalize t * q = s at *
  split
  · rw [e3, e4]; omega
  · rw [e1, e2]; omega

/-- The precision in which the reader scales a decimal: the digits of its coefficient, and one for a minus sign. -/
def readPrec (d : Dec) : Int := numDigits d.coeff + if d.sign then 1 else 0

/-- **C05, what is missing, for every decimal**  A decimal body whose exponent is below what the context has for its digits is read as a multiple of the least power of ten: the nearest one, halves to
even; whatever the coefficient is. -/
theorem C05_underflow_rounds (body : Bytes) (d : Dec) (h : IsDecimalBody body d) (h0 : d.coeff ≠ 0)
    (hlow : d.exp < -999998 - readPrec d) (hmin : -(2 * (999999 + readPrec d)) ≤ d.exp) :
    ∃ c, parseDecimal body = .ok ⟨d.sign, c, -999998 - readPrec d⟩ ∧ Nearest d.coeff (-999998 - readPrec d - d.exp).toNat c := by
  rw [parse_scaleb body d h h0]
  have hn := numDigits_pos d.coeff
  have hp : ((numDigits d.coeff + if d.sign then 1 else 0 : Nat) : Int) = readPrec d := by unfold readPrec; split <;> simp
  have hpp : numDigits d.coeff ≤ (numDigits d.coeff + if d.sign then 1 else 0) := by omega
  have hnp : (numDigits d.coeff : Int) ≤ readPrec d := by rw [← hp]; exact Int.ofNat_le.2 hpp
  generalize hP : (numDigits d.coeff + if d.sign then 1 else 0) = P at *
  have hP1 : ((P - 1 : Nat) : Int) = (P : Int) - 1 := by omega
  have hd : numDigits (Dec.roundHalfEven d.coeff (-999998 - readPrec d - d.exp).toNat) ≤ P := by
    have hk : (-999998 - readPrec d - d.exp).toNat = (-999998 - readPrec d - d.exp).toNat - 1 + 1 := by omega
    have h1 := (numDigits_le_iff d.coeff P (by omega)).1 hpp
    rw [numDigits_le_iff _ _ (by omega)]
    have h2 := (nearest_roundHalfEven d.coeff (-999998 - readPrec d - d.exp).toNat).2.1
    generalize Dec.roundHalfEven d.coeff (-999998 - readPrec d - d.exp).toNat = c at *
    generalize (-999998 - readPrec d - d.exp).toNat = k at *
    have h3 : (10 : Nat) ^ k = 10 * 10 ^ (k - 1) := by rw [hk, Nat.pow_succ]; simp [Nat.mul_comm]
    have h4 : 0 < (10 : Nat) ^ (k - 1) := Nat.pow_pos (by omega)
    rw [h3] at h2
    generalize (10 : Nat) ^ (k - 1) = t at *
    refine Nat.lt_of_not_le fun h5 => ?_
    have h6 : 10 * t * (2 * 10 ^ P) ≤ 10 * t * (2 * c) := Nat.mul_le_mul_left _ (by omega)
    have h7 : 1 ≤ (10 : Nat) ^ P := Nat.one_le_pow _ _ (by omega)
    have h8 : 10 * t * (2 * 10 ^ P) = 20 * (t * 10 ^ P) := by rw [Nat.mul_left_comm, Nat.mul_assoc]; omega
    have h9 : 1 * 10 ^ P ≤ t * 10 ^ P := Nat.mul_le_mul_right _ h4
    have h10 : t * 1 ≤ t * 10 ^ P := Nat.mul_le_mul_left _ h7
    omega
  refine ⟨_, ?_, nearest_roundHalfEven _ _⟩
  unfold Dec.scaleb Dec.fix Dec.emax Dec.emin
  rw [if_neg (by omega)]
  dsimp only
  rw [if_neg h0, if_neg (by omega), if_pos (by omega : (numDigits d.coeff : Int) + (0 + d.exp) - P < -999999 - ((P - 1 : Nat) : Int)), if_pos (by omega)]
  have hk : (-999999 - ((P - 1 : Nat) : Int) - (0 + d.exp)).toNat = (-999998 - readPrec d - d.exp).toNat := by omega
  have hx : ¬ numDigits (Dec.roundHalfEven d.coeff (-999998 - readPrec d - d.exp).toNat) > P := Nat.not_lt.2 hd
  simp only [hk, hx, if_false]
  rw [if_neg (by omega)]
  congr 2
  omega

/-- **C05, what is missing, for every decimal**  A decimal body whose exponent is too large or too small raises an exception of `decimal`. -/
theorem C05_out_of_range_raises (body : Bytes) (d : Dec) (h : IsDecimalBody body d) (h0 : d.coeff ≠ 0)
    (hr : 999999 < d.exp + numDigits d.coeff - 1 ∨ d.exp < -(2 * (999999 + readPrec d))) : parseDecimal body = .error .decimalError := by
  rw [parse_scaleb body d h h0]
  have hn := numDigits_pos d.coeff
  have hp : ((numDigits d.coeff + if d.sign then 1 else 0 : Nat) : Int) = readPrec d := by unfold readPrec; split <;> simp
  have hpp : numDigits d.coeff ≤ (numDigits d.coeff + if d.sign then 1 else 0) := by omega
  generalize hP : (numDigits d.coeff + if d.sign then 1 else 0) = P at *
  have hP1 : ((P - 1 : Nat) : Int) = (P : Int) - 1 := by omega
  unfold Dec.scaleb Dec.fix Dec.emax Dec.emin
  by_cases hx : ((d.exp.natAbs : Int) > 2 * (999999 + (P : Int)))
  · rw [if_pos hx]
  · rw [if_neg hx]
    dsimp only
    rw [if_neg h0, if_pos (by omega)]

/-- `15E-1000001` is such a decimal: it is read as `2E-1000000`. -/
example : ∃ d : Dec, d = ⟨false, 15, -1000001⟩ ∧ d.exp < -999998 - readPrec d ∧ -(2 * (999999 + readPrec d)) ≤ d.exp ∧ Nearest d.coeff (-999998 - readPrec d - d.exp).toNat 2 := by
  have : numDigits 15 = 2 := by decide +kernel
  exact ⟨_, rfl, by simp only [readPrec, this]; decide, by simp only [readPrec, this]; decide, by simp only [readPrec, this, Nearest]; decide⟩

/-- Outside the range C05 fails in the code: `Decimal('1E-1000000')` is written faithfully, but read back as
`Decimal('0E-999999')`, silently. -/
theorem C05_underflow_alters_value :
    ∃ d bs body, serializeDecimal d = .ok bs ∧ Framed 5 (toBytes bs) body ∧ IsDecimalBody body d ∧
      parseDecimal body = .ok ⟨false, 0, -999999⟩ ∧ d = ⟨false, 1, -1000000⟩ := by
  refine ⟨⟨false, 1, -1000000⟩, [0x54, 0x7D, 0x04, 0xC0, 0x01], [0x7D, 0x04, 0xC0, 0x01], by decide +kernel,
    .short 0x54 _ (by simp) (by decide), .inr ⟨[0x7D, 0x04, 0xC0], [0x01], true, 1000000, rfl, ⟨?_, ?_⟩, by simp, .inr ?_⟩,
    by decide +kernel, rfl⟩
  · exact .more _ _ (by decide) (.more _ _ (by decide) (.last _ (by decide)))
  · exact ⟨_, _, rfl, by decide, by decide⟩
  · exact ⟨_, _, rfl, by decide, by decide⟩

/-! ## C06 — strings and lobs -/

/-- **C06** Every text the writer accepts is framed UTF-8 that decodes to the same text. -/
theorem C06_string_roundtrip (t : Text) (bs : List Nat) (h : serializeString t = .ok bs) :
    ∃ body, Framed 8 (toBytes bs) body ∧ Utf8.decode body = .ok t := by
  unfold serializeString at h
  cases t with
  | nil =>
    simp at h
    subst h
    exact ⟨[], .short 0x80 [] (by simp) (by decide), by simp [Utf8.decode]⟩
  | cons c t =>
    simp only [List.isEmpty_cons, Bool.false_eq_true, if_false] at h
    cases he : Utf8.encode (c :: t) with
    | error e => rw [he] at h; simp [bind, Except.bind] at h
    | ok body =>
      rw [he] at h
      simp only [bind, Except.bind, pure, Except.pure, Except.ok.injEq] at h
      subst h
      refine ⟨body, ?_, Utf8.decode_encode _ _ he⟩
      have := framed_writeLength 8 (by omega) (body.map UInt8.toNat)
      rw [toBytes_map_toNat, List.length_map] at this
      exact this

/-- **C06** A text is accepted exactly if every code point is a Unicode scalar value; otherwise (lone surrogates) the
writer raises. -/
theorem C06_string_accepts (t : Text) :
    (∃ bs, serializeString t = .ok bs) ↔ ∀ c ∈ t, c < 0xD800 ∨ (0xDFFF < c ∧ c ≤ 0x10FFFF) := by
  unfold serializeString
  cases t with
  | nil => simp
  | cons c t =>
    simp only [List.isEmpty_cons, Bool.false_eq_true, if_false]
    have := Utf8.encode_ok_iff (c :: t)
    constructor
    · rintro ⟨bs, h⟩
      cases he : Utf8.encode (c :: t) with
      | error e => rw [he] at h; simp [bind, Except.bind] at h
      | ok body =>
        intro x hx
        have := this.1 ⟨body, he⟩ x hx
        unfold Utf8.Scalar at this
        omega
    · intro h
      obtain ⟨body, hb⟩ := this.2 (fun x hx => by unfold Utf8.Scalar; have := h x hx; omega)
      rw [hb]
      exact ⟨_, rfl⟩

/-- **C06** A clob or blob is framed verbatim, at every length. -/
theorem C06_lob_roundtrip (clob : Bool) (value : Bytes) :
    Framed (if clob then 9 else 10) (toBytes (serializeLob (if clob then 0x90 else 0xA0) value)) value := by
  unfold serializeLob
  cases clob with
  | false =>
    have := framed_writeLength 10 (by omega) (value.map UInt8.toNat)
    rw [toBytes_map_toNat, List.length_map] at this
    exact this
  | true =>
    have := framed_writeLength 9 (by omega) (value.map UInt8.toNat)
    rw [toBytes_map_toNat, List.length_map] at this
    exact this

example : ∃ bs, serializeString [0x41, 0x1F600, 0x7FF] = .ok bs := ⟨_, rfl⟩

/-! ## C07 — floats -/

/-- **C07** Every double is written either as the one octet `0x40` (exactly for positive zero) or with a body of 8
octets that the reader turns into the same 64-bit pattern: both zeros, subnormals, infinities and all NaNs included. -/
theorem C07_float_bits (bits : UInt64) :
    (bits = 0 ∧ serializeFloat bits = [0x40]) ∨
    (bits ≠ 0 ∧ ∃ body, Framed 4 (toBytes (serializeFloat bits)) body ∧ body.length = 8 ∧ parseFloat body = .ok bits) := by
  unfold serializeFloat
  by_cases h : bits = 0
  · left; simp [h]
  · right
    rw [if_neg h]
    refine ⟨h, toBytes (packBE8 bits), ?_, ?_, ?_⟩
    · rw [toBytes_cons]
      refine .short _ _ ?_ ?_ <;> simp [packBE8]
    · simp [packBE8]
    · unfold parseFloat
      rw [if_pos (by simp [packBE8])]
      unfold unpackDouble
      have hlt := bits.toNat_lt
      have : unpackBE (toBytes (packBE8 bits)) = bits.toNat := by
        simp only [packBE8, List.range, List.range.loop, List.map, toBytes_cons, toBytes_nil, unpackBE, List.foldl]
        simp only [Nat.reducePow, Nat.reduceSub]
        have hm : ∀ x, (UInt8.ofNat (x % 256)).toNat = x % 256 := fun x => ofNat_toNat_of_lt (by omega)
        simp only [hm]
        generalize bits.toNat = n at *
        omega
      rw [this]
      simp

/-- **C07** A 4-octet float body is widened exactly: the sign is kept, finite values have the same magnitude, infinities
and NaNs stay infinities and NaNs. -/
theorem C07_widen_exact (f : Nat) (hf : f < 2 ^ 32) :
    widen f < 2 ^ 64 ∧ widen f / 2 ^ 63 = f / 2 ^ 31 ∧
    (f / 2 ^ 23 % 256 ≠ 255 →
      widen f / 2 ^ 52 % 2048 ≠ 2047 ∧ doubleMagnitude (widen f) = singleMagnitude f * 2 ^ 925) ∧
    (f / 2 ^ 23 % 256 = 255 →
      widen f / 2 ^ 52 % 2048 = 2047 ∧ (widen f % 2 ^ 52 = 0 ↔ f % 2 ^ 23 = 0)) := by
  unfold widen
  simp only
  have hm : f % 2 ^ 23 < 2 ^ 23 := Nat.mod_lt _ (by decide)
  have he : f / 2 ^ 23 % 256 < 256 := Nat.mod_lt _ (by decide)
  have hs : f / 2 ^ 31 < 2 := by simp only [Nat.reducePow] at *; omega
  unfold singleMagnitude
  simp only
  generalize f / 2 ^ 31 = s at *
  generalize f / 2 ^ 23 % 256 = e at *
  generalize f % 2 ^ 23 = m at *
  clear hf
  obtain ⟨K, hK⟩ : ∃ K, K = 925 := ⟨_, rfl⟩
  rw [← hK]
  -- the fields of a double put together from sign, exponent and mantissa
  have asm : ∀ E M : Nat, E < 2048 → M < 2 ^ 52 →
      s * 2 ^ 63 + (E * 2 ^ 52 + M) < 2 ^ 64 ∧ (s * 2 ^ 63 + (E * 2 ^ 52 + M)) / 2 ^ 63 = s ∧
      (s * 2 ^ 63 + (E * 2 ^ 52 + M)) / 2 ^ 52 % 2048 = E ∧ (s * 2 ^ 63 + (E * 2 ^ 52 + M)) % 2 ^ 52 = M := by
    intro E M hE hM
    simp only [Nat.reducePow] at *
    omega
  have dm : ∀ E M : Nat, E < 2048 → M < 2 ^ 52 →
      doubleMagnitude (s * 2 ^ 63 + (E * 2 ^ 52 + M)) = if E = 0 then M else (2 ^ 52 + M) * 2 ^ (E - 1) := by
    intro E M hE hM
    obtain ⟨-, -, a3, a4⟩ := asm E M hE hM
    unfold doubleMagnitude
    simp only [a3, a4]
  by_cases h255 : e = 255
  · simp only [h255, if_true]
    obtain ⟨a1, a2, a3, a4⟩ := asm 2047 (m * 2 ^ 29) (by omega) (by simp only [Nat.reducePow] at *; omega)
    refine ⟨a1, a2, fun h => absurd rfl h, fun _ => ⟨a3, ?_⟩⟩
    rw [a4]; simp only [Nat.reducePow]; omega
  · rw [if_neg h255]
    by_cases h0 : e = 0
    · rw [if_pos h0, if_pos h0]
      by_cases hm0 : m = 0
      · rw [if_pos hm0]
        have hz : s * 2 ^ 63 + 0 = s * 2 ^ 63 + (0 * 2 ^ 52 + 0) := by rw [Nat.zero_mul]
        obtain ⟨a1, a2, a3, a4⟩ := asm 0 0 (by omega) (by decide)
        rw [hz]
        refine ⟨a1, a2, fun _ => ⟨by rw [a3]; omega, ?_⟩, fun h => absurd h h255⟩
        rw [dm 0 0 (by omega) (by decide), if_pos rfl, hm0, Nat.zero_mul]
      · rw [if_neg hm0]
        have hk1 : 2 ^ m.log2 ≤ m := Nat.log2_self_le hm0
        have hk2 : m < 2 ^ (m.log2 + 1) := Nat.lt_log2_self
        have hk3 : m.log2 < 23 := (Nat.log2_lt hm0).2 hm
        generalize m.log2 = k at *
        have hpow : 2 ^ k * 2 ^ (52 - k) = 2 ^ 52 := by rw [← Nat.pow_add]; congr 1; omega
        have hM : (m - 2 ^ k) * 2 ^ (52 - k) < 2 ^ 52 := by
          rw [← hpow]
          apply Nat.mul_lt_mul_of_pos_right
          · rw [Nat.pow_succ] at hk2; omega
          · exact Nat.pow_pos (by omega)
        obtain ⟨a1, a2, a3, a4⟩ := asm (k + 874) _ (by omega) hM
        refine ⟨a1, a2, fun _ => ⟨by rw [a3]; omega, ?_⟩, fun h => absurd h h255⟩
        rw [dm (k + 874) _ (by omega) hM]
        rw [if_neg (by omega), ← hpow, ← Nat.add_mul, show 2 ^ k + (m - 2 ^ k) = m by omega, Nat.mul_assoc, ← Nat.pow_add,
          show 52 - k + (k + 874 - 1) = K by omega]
    · rw [if_neg h0, if_neg h0]
      have hM : m * 2 ^ 29 < 2 ^ 52 := by simp only [Nat.reducePow] at *; omega
      obtain ⟨a1, a2, a3, a4⟩ := asm (e + 896) (m * 2 ^ 29) (by omega) hM
      refine ⟨a1, a2, fun _ => ⟨by rw [a3]; omega, ?_⟩, fun h => absurd h h255⟩
      rw [dm (e + 896) _ (by omega) hM]
      rw [if_neg (by omega)]
      have h52 : (2 : Nat) ^ 52 = 2 ^ 23 * 2 ^ 29 := by rw [← Nat.pow_add]
      rw [h52, ← Nat.add_mul, Nat.mul_assoc, Nat.mul_assoc, ← Nat.pow_add, ← Nat.pow_add,
        show 29 + (e + 896 - 1) = e - 1 + K by omega]

/-- **C07** and the reader uses that widening for 4-octet bodies, big-endian bits for 8-octet bodies, and refuses others. -/
theorem C07_float_bodies (data : Bytes) :
    (data.length = 8 → parseFloat data = .ok (UInt64.ofNat (base256 0 data))) ∧
    (data.length = 4 → parseFloat data = .ok (UInt64.ofNat (widen (base256 0 data)))) ∧
    (data.length ≠ 4 → data.length ≠ 8 → parseFloat data = .error .valueError) := by
  have h256 : ∀ d : Bytes, base256 0 d = unpackBE d := by
    intro d
    have h := C04_parse_int 1 d
    rw [parseInt_eq] at h
    omega
  unfold parseFloat unpackDouble
  rw [h256]
  refine ⟨fun h => by rw [if_pos h], fun h => by rw [if_neg (by omega), if_pos h], fun h1 h2 => by rw [if_neg h2, if_neg h1]⟩

example : widen 0x00000001 = 0x36A0000000000000 ∧ widen 0x3F800000 = 0x3FF0000000000000 := by decide +kernel

/-! ## C08 — timestamps -/

/-- **C08** (partial: excludes date-only precision with a non-zero offset, offsets that are not whole minutes and
fractions of more than 28 digits, for which the code does not preserve the value, see below)  A timestamp that the
constructor made and the writer accepted reads back with the same precision, local offset (unknown included), date and
time fields, and fractional seconds with the same digits. -/
theorem C08_roundtrip_partial (a : TimestampArgs) (t : Timestamp) (hnew : Timestamp.new a = .ok t)
    (hoff : ∀ o, t.dt.tz = some o → o % 60000000 = 0 ∧ -86400000000 < o ∧ o < 86400000000)
    (hdate : (t.precision.getD .second).includesMinute = true ∨ t.dt.tz = none ∨ t.dt.tz = some 0)
    (hdigits : t.frac.coeff < 10 ^ 28) (hexp : -999999 ≤ t.frac.exp) (hnz : t.frac ≠ ⟨true, 0, 0⟩)
    (bs : List Nat) (h : serializeTimestamp (.ts t) = .ok bs) :
    ∃ body r, Framed 6 (toBytes bs) body ∧ parseTimestamp body = .ok r ∧ SameAtPrecision t r := by
  unfold serializeTimestamp at h
  cases hb : timestampBody (.ts t) with
  | error e => rw [hb] at h; simp [bind, Except.bind] at h
  | ok body =>
    rw [hb] at h
    simp only [bind, Except.bind, pure, Except.pure, Except.ok.injEq] at h
    subst h
    refine ⟨toBytes body, expected t, framed_writeLength 6 (by omega) body, ?_, ?_⟩
    · refine timestamp_roundtrip hnew hoff ⟨hdigits, hexp, ?_⟩ hdate hb
      rintro ⟨h1, h2, h3⟩
      apply hnz
      cases hf : t.frac with
      | mk s c e =>
        rw [hf] at h1 h2 h3
        simp only at h1 h2 h3
        rw [h1, h2, h3]
    · unfold expected
      cases hp : t.precision.getD .second <;>
        constructor <;>
        simp [hp, DateTime.cut, Precision.includesMonth, Precision.includesDay, Precision.includesMinute,
          Precision.includesSecond, Precision.toNat]

/-- **C08** The writer accepts such a timestamp exactly if its UTC time stays within the years 1 to 9999. -/
theorem C08_writer_accepts (t : Timestamp) (hu : t.frac.inUnit = true) (hz : ¬ (t.frac.coeff = 0 ∧ t.frac.exp > 0))
    (hdigits : t.frac.coeff < 10 ^ 28) (hexp : -999999 ≤ t.frac.exp) (hnz : t.frac ≠ ⟨true, 0, 0⟩) :
    (∃ bs, serializeTimestamp (.ts t) = .ok bs) ↔ (∀ o, t.dt.tz = some o → ∃ u, t.dt.addMicros (-o) = .ok u) := by
  have hfr : FracOk t.frac := ⟨hdigits, hexp, by
    rintro ⟨h1, h2, h3⟩
    apply hnz
    cases hf : t.frac with
    | mk s c e =>
      rw [hf] at h1 h2 h3
      simp only at h1 h2 h3
      rw [h1, h2, h3]⟩
  obtain ⟨fb, hfb, -⟩ := fraction_roundtrip t.frac hfr hu hz
  unfold serializeTimestamp timestampBody
  simp only [TimeVal.dateTime, TimeVal.precision, hfb]
  cases htz : t.dt.tz with
  | none =>
    simp only [bind, Except.bind, pure, Except.pure]
    constructor
    · intro _ o ho; cases ho
    · intro _
      by_cases hp : (t.precision.getD .second).includesSecond = true
      · rw [if_pos hp]; exact ⟨_, rfl⟩
      · rw [if_neg hp]; exact ⟨_, rfl⟩
  | some o =>
    simp only [bind, Except.bind, pure, Except.pure]
    constructor
    · rintro ⟨bs, h⟩ o' ho'
      cases ho'
      cases ha : t.dt.addMicros (-o) with
      | error e => rw [ha] at h; cases h
      | ok u => exact ⟨u, rfl⟩
    · intro h
      obtain ⟨u, hu⟩ := h o rfl
      rw [hu]
      by_cases hp : (t.precision.getD .second).includesSecond = true
      · rw [if_pos hp]; exact ⟨_, rfl⟩
      · rw [if_neg hp]; exact ⟨_, rfl⟩

/-- A concrete timestamp that meets every hypothesis: 2016-02-02T00:00:30.000123-08:00, 08:00:30 UTC. -/
example : ∃ t bs, Timestamp.new ⟨2016, 2, 2, 0, 0, 30, none, some (-28800000000), some .second, none, some ⟨false, 123, -6⟩⟩
      = .ok t ∧ serializeTimestamp (.ts t) = .ok bs ∧ t.frac.coeff < 10 ^ 28 ∧ t.frac ≠ ⟨true, 0, 0⟩ :=
  ⟨⟨⟨2016, 2, 2, 0, 0, 30, 123, some (-28800000000)⟩, some .second, 6, ⟨false, 123, -6⟩⟩,
    [0x6B, 0x43, 0xE0, 0x0F, 0xE0, 0x82, 0x82, 0x88, 0x80, 0x9E, 0xC6, 0x7B], by decide +kernel, by decide +kernel,
    by decide +kernel, by decide⟩

/-- C08 fails in the code for a date with a non-zero offset: 2016-02-02 (precision day) at offset +08:00 comes back as
2016-02-01. -/
theorem C08_date_with_offset_altered :
    ∃ t bs body r, Timestamp.new ⟨2016, 2, 2, 0, 0, 0, none, some (28800000000), some .day, none, none⟩ = .ok t ∧
      serializeTimestamp (.ts t) = .ok bs ∧ Framed 6 (toBytes bs) body ∧ parseTimestamp body = .ok r ∧
      t.dt.day = 2 ∧ r.dt.day = 1 :=
  ⟨⟨⟨2016, 2, 2, 0, 0, 0, 0, some 28800000000⟩, some .day, 0, Dec.zero⟩, [0x66, 0x03, 0xE0, 0x0F, 0xE0, 0x82, 0x81],
    [0x03, 0xE0, 0x0F, 0xE0, 0x82, 0x81],
    ⟨⟨2016, 2, 1, 8, 0, 0, 0, some 28800000000⟩, some .day, 0, Dec.zero⟩,
    by decide +kernel, by decide +kernel, .short 0x66 _ (by simp) (by decide), by decide +kernel, rfl, rfl⟩

/-- C08 fails in the code for a fraction of 29 digits: the writer rounds it to 28 digits (in the default context). -/
theorem C08_long_fraction_altered :
    ∃ t bs, Timestamp.new ⟨2016, 2, 2, 0, 0, 0, none, none, some .second, none,
        some ⟨false, 12345678901234567890123456789, -29⟩⟩ = .ok t ∧
      timestampBody (.ts t) = .ok bs ∧
      parseTimestamp (toBytes bs) =
        .ok { t with frac := ⟨false, 12345678901234567890123456790, -29⟩ } := by
  refine ⟨⟨⟨2016, 2, 2, 0, 0, 0, 123456, none⟩, some .second, 6, ⟨false, 12345678901234567890123456789, -29⟩⟩,
    [192, 15, 224, 130, 130, 128, 128, 128, 221, 39, 228, 27, 50, 70, 190, 201, 177, 110, 57, 129, 22], ?_, ?_, ?_⟩
  all_goals decide +kernel

/-! ## C33 — normalisation by the timestamp constructor -/

/-- **C33** Whatever arguments the constructor accepts, the three sub-second attributes agree: the fraction is in
`[0, 1)`, `fractional_precision` is the number of its digits capped at 6, and the microsecond is the fraction truncated
to six digits (for fractions of up to 28 digits; see `C33_long_fraction_rounded`). -/
theorem C33_attributes_agree_partial (a : TimestampArgs) (t : Timestamp) (h : Timestamp.new a = .ok t) :
    t.frac.exp ≤ 0 ∧ t.frac.coeff < 10 ^ (-t.frac.exp).toNat ∧ (t.frac.sign = true → t.frac.coeff = 0) ∧
    t.fracPrecision = min 6 (-t.frac.exp) ∧
    (t.frac.coeff < 10 ^ 28 → t.dt.micro = t.frac.coeff * 10 ^ 6 / 10 ^ (-t.frac.exp).toNat) := by
  obtain ⟨-, -, -, -, -, -, -, -, -, -, hidem⟩ := Timestamp.new_inv h
  obtain ⟨hu, m, hm, hr⟩ := (Timestamp.normalise_frac _ _).1 hidem
  simp only [Prod.mk.injEq] at hr
  have hz : ¬ (t.frac.coeff = 0 ∧ t.frac.exp > 0) := by
    intro hc
    simp only [hc, and_self, if_true] at hr
    have := hc.2
    rw [hr.2.2] at this
    simp [Dec.zero] at this
  rw [if_neg hz] at hm
  rw [if_neg hz] at hr
  have hu' := hu
  unfold Dec.inUnit at hu
  simp only [Bool.and_eq_true, Bool.or_eq_true, decide_eq_true_eq, Bool.not_eq_true'] at hu
  have hexp : t.frac.exp ≤ 0 := by
    by_cases hc : t.frac.exp ≥ 0
    · simp only [hc, if_true, decide_eq_true_eq] at hu
      have : ¬ t.frac.exp > 0 := fun hp => hz ⟨hu.2, hp⟩
      omega
    · omega
  refine ⟨hexp, ?_, ?_, ?_, ?_⟩
  · by_cases hc : t.frac.exp ≥ 0
    · simp only [hc, if_true, decide_eq_true_eq] at hu
      rw [hu.2]; exact Nat.pow_pos (by omega)
    · simp only [hc, if_false, decide_eq_true_eq] at hu
      exact hu.2
  · intro hs
    rcases hu.1 with h0 | h0
    · exact h0
    · rw [hs] at h0; cases h0
  · rw [hr.2.1]; omega
  · intro hc
    obtain ⟨m', hm', hv⟩ := Dec.mulMillion_toInt t.frac hu' hc
    rw [hm] at hm'
    cases hm'
    rw [hv] at hr
    have h1 := hr.1
    rw [Nat.mul_comm t.frac.coeff]
    simp only [Nat.reducePow] at h1 ⊢
    omega

/-- **C33** The constructor keeps what it is given: a fraction argument is stored unchanged (a zero with positive
exponent becomes plain zero); a microsecond argument is stored, the fraction has exactly `fractional_precision` digits
(6 if not given) and the same value; with neither, everything is zero. -/
theorem C33_keeps_arguments (a : TimestampArgs) (t : Timestamp) (h : Timestamp.new a = .ok t) :
    (∀ f, a.frac = some f → t.frac = if f.coeff = 0 ∧ f.exp > 0 then ⟨false, 0, 0⟩ else f) ∧
    (∀ m, a.micro = some m → (t.dt.micro : Int) = m ∧ t.fracPrecision = a.fracPrecision.getD 6 ∧
      t.frac.exp = -t.fracPrecision ∧ t.frac.sign = false ∧
      (t.frac.coeff : Int) * 10 ^ (6 - t.fracPrecision).toNat = m) ∧
    (a.frac = none → a.micro = none → t.dt.micro = 0 ∧ t.frac = ⟨false, 0, 0⟩ ∧ t.fracPrecision = 0) := by
  obtain ⟨-, -, -, -, -, -, -, -, -, hn, -⟩ := Timestamp.new_inv h
  generalize t.frac = fr, t.fracPrecision = fp, t.dt.micro = mi at *
  obtain ⟨y, mo, d, ho, mm, s, micro, tz, p, fracPrecision, frac⟩ := a
  simp only at hn ⊢
  cases frac with
  | some f =>
    have hnn : micro = none ∧ fracPrecision = none := by
      unfold Timestamp.normalise at hn
      cases micro <;> cases fracPrecision <;>
        simp [throw, throwThe, MonadExceptOf.throw, bind, Except.bind, pure, Except.pure] at hn ⊢
      all_goals (split at hn <;> try (simp at hn))
      all_goals (split at hn <;> simp at hn)
    obtain ⟨rfl, rfl⟩ := hnn
    obtain ⟨-, m, -, hr⟩ := (Timestamp.normalise_frac _ _).1 hn
    simp only [Prod.mk.injEq] at hr
    refine ⟨?_, by simp, by simp⟩
    intro g hg; cases hg
    exact hr.2.2
  | none =>
    refine ⟨by simp, ?_, ?_⟩
    · rintro m rfl
      unfold Timestamp.normalise at hn
      cases fracPrecision with
      | none =>
        simp only [Option.isSome_none, Option.isSome_some, Option.isNone_some, Bool.or_true, Bool.false_and,
          Bool.false_eq_true, if_false, pure_bind, bind, Except.bind, pure, Except.pure, Option.getD_none,
          reduceCtorEq, decide_false] at hn
        rw [if_neg (by omega)] at hn
        split at hn
        · rename_i hb
          split at hn
          · simp only [Except.ok.injEq, Prod.mk.injEq] at hn
            obtain ⟨h1, h2, h3⟩ := hn
            subst h2 h3
            simp at *
            omega
          · cases hn
        · cases hn
      | some q =>
        simp only [Option.isSome_none, Option.isSome_some, Option.isNone_some, Bool.or_true, Bool.false_and,
          Bool.and_false, throw, throwThe, MonadExceptOf.throw,
          Bool.false_eq_true, if_false, pure_bind, bind, Except.bind, pure, Except.pure, Option.getD_some] at hn
        split at hn
        · cases hn
        · rename_i hb
          have hr' : 0 ≤ q ∧ q ≤ 6 := Classical.not_not.1 hb
          split at hn
          · cases hn
          · rename_i hz
            split at hn
            · rename_i hq0
              subst hq0
              simp only [Except.ok.injEq, Prod.mk.injEq] at hn
              obtain ⟨h1, h2, h3⟩ := hn
              subst h2 h3
              have : m = 0 := by simpa using hz
              subst this
              refine ⟨h1.symm, rfl, rfl, rfl, by simp [Dec.zero]⟩
            · split at hn
              · rename_i hb
                split at hn
                · rename_i hd
                  simp only [Except.ok.injEq, Prod.mk.injEq] at hn
                  obtain ⟨h1, h2, h3⟩ := hn
                  subst h2 h3
                  refine ⟨h1.symm, rfl, rfl, rfl, ?_⟩
                  have := Nat.div_mul_cancel (Nat.dvd_of_mod_eq_zero hd)
                  simp only [Int.natCast_ediv]
                  have hc : ((m.toNat / 10 ^ (6 - q).toNat * 10 ^ (6 - q).toNat : Nat) : Int) = (m.toNat : Int) := by
                    rw [this]
                  rw [Int.natCast_mul, Int.natCast_ediv] at hc
                  rw [show ((10 : Int) ^ (6 - q).toNat) = (((10 : Nat) ^ (6 - q).toNat : Nat) : Int) by simp, hc]
                  omega
                · cases hn
              · cases hn
    · rintro - rfl
      unfold Timestamp.normalise at hn
      cases fracPrecision with
      | none =>
        simp [throw, throwThe, MonadExceptOf.throw, bind, Except.bind, pure, Except.pure] at hn
        obtain ⟨h1, rfl, rfl⟩ := hn
        exact ⟨by omega, rfl, rfl⟩
      | some q =>
        simp [throw, throwThe, MonadExceptOf.throw, bind, Except.bind, pure, Except.pure] at hn

/-- **C33** Conflicting or out-of-range arguments raise `ValueError`. -/
theorem C33_rejects (a : TimestampArgs)
    (h : (∃ f, a.frac = some f ∧ (a.micro.isSome ∨ a.fracPrecision.isSome)) ∨
      (a.fracPrecision.isSome ∧ a.micro = none) ∨
      (∃ p, a.fracPrecision = some p ∧ (p < 0 ∨ 6 < p)) ∨
      (a.fracPrecision = some 0 ∧ a.micro ≠ some 0) ∨
      (∃ m p, a.micro = some m ∧ a.fracPrecision = some p ∧ 0 ≤ m ∧ ¬ (m.toNat % 10 ^ (6 - p).toNat = 0)) ∨
      (∃ m, a.micro = some m ∧ (m < 0 ∨ 1000000 ≤ m)) ∨
      (∃ f, a.frac = some f ∧ ((f.coeff ≠ 0 ∧ (f.sign = true ∨ 0 ≤ f.exp)) ∨ (f.exp < 0 ∧ 10 ^ (-f.exp).toNat ≤ f.coeff)))) :
    ∃ e, Timestamp.new a = .error e := by
  cases hn : Timestamp.new a with
  | error e => exact ⟨e, rfl⟩
  | ok t =>
    exfalso
    have hk := C33_keeps_arguments a t hn
    have hag := C33_attributes_agree_partial a t hn
    obtain ⟨hv, -, -, -, -, -, -, -, -, hn', hidem⟩ := Timestamp.new_inv hn
    have hpar : ¬ (∃ f, a.frac = some f ∧ (a.micro.isSome ∨ a.fracPrecision.isSome)) := by
      rintro ⟨f, hf, hh⟩
      rw [hf] at hn'
      unfold Timestamp.normalise at hn'
      cases hm : a.micro <;> cases hp : a.fracPrecision <;> simp [hm, hp] at hh <;>
        simp [hm, hp, throw, throwThe, MonadExceptOf.throw, bind, Except.bind, pure, Except.pure] at hn'
      all_goals (split at hn' <;> try (simp at hn'))
      all_goals (split at hn' <;> simp at hn')
    have hfp : ¬ (a.fracPrecision.isSome ∧ a.micro = none) := by
      rintro ⟨hf, hm⟩
      obtain ⟨p, hp⟩ := Option.isSome_iff_exists.1 hf
      cases hfr : a.frac with
      | some f => exact hpar ⟨f, hfr, .inr hf⟩
      | none =>
        rw [hp, hm, hfr] at hn'
        unfold Timestamp.normalise at hn'
        simp [throw, throwThe, MonadExceptOf.throw, bind, Except.bind, pure, Except.pure] at hn'
    have hmic : ∀ m, a.micro = some m → 0 ≤ m ∧ m < 1000000 := by
      intro m hm
      have h1 := (hk.2.1 m hm).1
      have h2 := hv.2.2.2.2.2.2.2.2.2
      omega
    have hrange : ∀ p, a.fracPrecision = some p → 0 ≤ p ∧ p ≤ 6 := by
      intro p hp
      cases hm : a.micro with
      | none => exact absurd ⟨by simp [hp], hm⟩ hfp
      | some m =>
        have h1 := (hk.2.1 m hm)
        rw [hp] at h1
        simp only [Option.getD_some] at h1
        have h2 := hag.2.2.2.1
        have h3 := hag.1
        omega
    rcases h with h | h | h | h | h | h | h
    · exact hpar h
    · exact hfp h
    · obtain ⟨p, hp, hr⟩ := h
      have := hrange p hp
      omega
    · obtain ⟨hp, hm⟩ := h
      cases hmm : a.micro with
      | none => exact hfp ⟨by simp [hp], hmm⟩
      | some m =>
        have h1 := (hk.2.1 m hmm)
        rw [hp] at h1
        simp only [Option.getD_some] at h1
        obtain ⟨h1, h2, h3, -, h5⟩ := h1
        have h4 := hag.2.1
        rw [h3, h2] at h4
        simp at h4
        rw [h4] at h5
        apply hm
        rw [hmm]
        simp at h5
        rw [← h5]
    · obtain ⟨m, p, hm, hp, h0, hd⟩ := h
      have h1 := (hk.2.1 m hm)
      rw [hp] at h1
      simp only [Option.getD_some] at h1
      obtain ⟨-, h2, -, -, h5⟩ := h1
      apply hd
      rw [h2] at h5
      have : m.toNat = t.frac.coeff * 10 ^ (6 - p).toNat := by
        rw [← h5]
        have : ((t.frac.coeff : Int) * 10 ^ (6 - p).toNat) = ((t.frac.coeff * 10 ^ (6 - p).toNat : Nat) : Int) := by
          simp
        rw [this, Int.toNat_natCast]
      rw [this]; simp
    · obtain ⟨m, hm, hr⟩ := h
      have := hmic m hm
      omega
    · obtain ⟨f, hf, hr⟩ := h
      have h1 := hk.1 f hf
      by_cases hz : f.coeff = 0 ∧ f.exp > 0
      · rcases hr with ⟨h0, -⟩ | ⟨h0, -⟩
        · exact h0 hz.1
        · omega
      · rw [if_neg hz] at h1
        rw [h1] at hag
        obtain ⟨g1, g2, g3, -, -⟩ := hag
        rcases hr with ⟨h0, hs | hs⟩ | ⟨h0, hs⟩
        · exact h0 (g3 hs)
        · have : f.exp = 0 := by omega
          rw [this] at g2
          simp at g2
          exact h0 g2
        · omega

/-- Concrete arguments accepted by the constructor. -/
example : ∃ t, Timestamp.new ⟨2019, 10, 1, 12, 45, 1, none, some 0, some .second, none, some ⟨false, 123456789, -9⟩⟩ = .ok t ∧
    t.dt.micro = 123456 ∧ t.fracPrecision = 6 :=
  ⟨⟨⟨2019, 10, 1, 12, 45, 1, 123456, some 0⟩, some .second, 6, ⟨false, 123456789, -9⟩⟩, by decide +kernel, rfl, rfl⟩

/-- The documented truncation fails in the code for a fraction of 34 digits: the microsecond is rounded up. -/
theorem C33_long_fraction_rounded :
    ∃ t, Timestamp.new ⟨2019, 10, 1, 12, 45, 1, none, none, some .second, none,
        some ⟨false, 1234569999999999999999999999999999, -34⟩⟩ = .ok t ∧
      t.dt.micro = 123457 ∧ t.frac.coeff * 10 ^ 6 / 10 ^ (-t.frac.exp).toNat = 123456 :=
  ⟨⟨⟨2019, 10, 1, 12, 45, 1, 123457, none⟩, some .second, 6, ⟨false, 1234569999999999999999999999999999, -34⟩⟩,
    by decide +kernel, rfl, by decide +kernel⟩

end Ion.Scalars
