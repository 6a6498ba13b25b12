import Verif.ScalarsLemmas
import Verif.TimestampLemmas
set_option linter.unusedSimpArgs false
/-!
# Round trip of timestamp bodies
-/
namespace Ion
/-- A date-time cut to a precision: every finer field is at its default. -/
def DateTime.cut (d : DateTime) : Precision → DateTime
  | .year => ⟨d.year, 1, 1, 0, 0, 0, 0, d.tz⟩
  | .month => ⟨d.year, d.month, 1, 0, 0, 0, 0, d.tz⟩
  | .day => ⟨d.year, d.month, d.day, 0, 0, 0, 0, d.tz⟩
  | .minute => ⟨d.year, d.month, d.day, d.hour, d.minute, 0, 0, d.tz⟩
  | .second => d

theorem DateTime.cut_valid {d : DateTime} (h : d.Valid) (p : Precision) : (d.cut p).Valid := by
  obtain ⟨a, b, c, d1, e, f, g, i, j, k⟩ := h
  have h1 := (DateTime.daysInMonth_pos d.year 1).1
  have h2 := (DateTime.daysInMonth_pos d.year d.month).1
  cases p <;> refine ⟨a, b, ?_, ?_, ?_, ?_, ?_, ?_, ?_, ?_⟩ <;> simp only [DateTime.cut] <;> omega

namespace Scalars
open Ion Ion.Fields

/-- Fractions that the binary codec preserves: at most 28 digits, an exponent within the decimal context's limits, and
not the negative zero without digits. -/
def FracOk (f : Dec) : Prop :=
  f.coeff < 10 ^ 28 ∧ -999999 ≤ f.exp ∧ ¬ (f.coeff = 0 ∧ f.exp = 0 ∧ f.sign = true)

instance (f : Dec) : Decidable (FracOk f) := by unfold FracOk; infer_instance

theorem isEmpty_varUInt (n : Nat) (r : Bytes) : (toBytes (writeVarUInt n) ++ r).isEmpty = false := by
  have h := writeVarUInt_length_pos n
  cases hb : writeVarUInt n with
  | nil => rw [hb] at h; simp at h
  | cons a l => rfl

theorem isEmpty_varInt (n : Int) (r : Bytes) : (toBytes (writeVarInt n ++ r')  ++ r).isEmpty = false := by
  have h := writeVarInt_length_pos n
  cases hb : writeVarInt n with
  | nil => rw [hb] at h; simp at h
  | cons a l => rfl

/-- The offset fields that the writer emits. -/
def offsetField (tz : Option Int) : List Nat :=
  match tz with | none => [0xC0] | some o => writeVarInt (o / minuteMicros)

/-- An offset in whole minutes, less than a day. -/
def OffsetOk (tz : Option Int) : Prop := ∀ o, tz = some o → o % minuteMicros = 0 ∧ -dayMicros < o ∧ o < dayMicros

theorem parse_offset (tz : Option Int) (h : OffsetOk tz) (rest : Bytes) :
    ∃ s v, parseVarComponents (toBytes (offsetField tz) ++ rest) true = .ok (s, v, rest) ∧
      (if s = -1 ∧ (v : Int) * s = 0 then (.ok none : Except PyErr (Option Int)) else do
        let d ← offsetTZInfo ((v : Int) * s * minuteMicros)
        return some d) = .ok tz := by
  cases tz with
  | none =>
    refine ⟨-1, 0, rfl, ?_⟩
    simp
  | some o =>
    obtain ⟨h1, h2, h3⟩ := h o rfl
    refine ⟨_, _, parseVarComponents_writeVarInt _ _, ?_⟩
    unfold minuteMicros dayMicros at *
    have hneg : ¬ ((if o / 60000000 < 0 then -1 else 1 : Int) = -1 ∧
        (((o / 60000000).natAbs : Nat) : Int) * (if o / 60000000 < 0 then -1 else 1) = 0) := by
      split <;> omega
    rw [if_neg hneg]
    have hval : (((o / 60000000).natAbs : Nat) : Int) * (if o / 60000000 < 0 then -1 else 1) * 60000000 = o := by
      split <;> omega
    rw [hval]
    unfold offsetTZInfo dayMicros
    rw [if_neg (by omega)]
    rfl

/-- The fraction the reader obtains from the fraction bytes the writer emits. -/
theorem fraction_roundtrip (f : Dec) (h : FracOk f) (hu : f.inUnit = true) (hz : ¬ (f.coeff = 0 ∧ f.exp > 0)) :
    ∃ fb, writeTimestampFraction f = .ok fb ∧
      (if (toBytes fb).isEmpty then (.ok none : Except PyErr (Option Dec)) else do
        let f ← parseDecimal (toBytes fb)
        return if f.coeff = 0 ∧ f.exp > -1 then none else some f) =
      .ok (if f.coeff = 0 ∧ f.exp = 0 then none else some f) := by
  obtain ⟨h1, h2, h3⟩ := h
  have hnd : numDigits f.coeff ≤ 28 := (numDigits_le_iff _ _ (by omega)).2 h1
  have hexp : f.exp ≤ 0 := by
    by_cases h0 : f.coeff = 0
    · have : ¬ f.exp > 0 := fun h => hz ⟨h0, h⟩
      omega
    · unfold Dec.inUnit at hu
      by_cases h : f.exp ≥ 0
      · simp [h, h0] at hu
      · omega
  obtain ⟨s, hs, hc⟩ := scaled_coefficient 28 f (by omega) hnd (by omega) (by omega)
  have hsign : f.coeff ≠ 0 → f.sign = false := by
    intro h0
    unfold Dec.inUnit at hu; simp only [h0, decide_false, Bool.false_or, Bool.and_eq_true] at hu
    simpa using hu.1
  unfold writeTimestampFraction
  simp only [Dec.defaultPrec, hs, hc, bind, Except.bind, pure, Except.pure]
  by_cases h0 : f.coeff = 0
  · have hif : (if f.sign = true then -(f.coeff : Int) else (f.coeff : Int)) = 0 := by rw [h0]; simp
    rw [hif]
    by_cases he : f.exp = 0
    · rw [if_pos ⟨rfl, by omega⟩]
      exact ⟨[], rfl, by simp [h0, he]⟩
    · rw [if_neg (by omega)]
      refine ⟨_, rfl, ?_⟩
      have hne : (toBytes (writeDecimalValue f.exp 0 f.sign)).isEmpty = false := by
        have := isEmpty_varInt f.exp [] (r' := if (0 : Int) ≠ 0 then writeInt 0 else if f.sign then [0x80] else [])
        rw [List.append_nil] at this
        exact this
      rw [hne, parseDecimal_write _ _ _ (by simp)]
      simp only [Bool.false_eq_true, if_false, if_true, true_and, h0]
      rw [if_neg (by omega), if_neg (by omega)]
      cases f; simp_all
  · have hsf := hsign h0
    have he : f.exp < 0 := by
      unfold Dec.inUnit at hu
      by_cases h : f.exp ≥ 0
      · simp [h, h0] at hu
      · omega
    rw [hsf]
    simp only [Bool.false_eq_true, if_false]
    rw [if_neg (by omega)]
    refine ⟨_, rfl, ?_⟩
    have hne : (toBytes (writeDecimalValue f.exp (f.coeff : Int) false)).isEmpty = false := by
      have := isEmpty_varInt f.exp []
        (r' := if (f.coeff : Int) ≠ 0 then writeInt (f.coeff : Int) else if false then [0x80] else [])
      rw [List.append_nil] at this
      exact this
    rw [hne, parseDecimal_write _ _ _ (by intro _; simp)]
    have hsc := scaleb_exact f h0 (by
      right
      have hpos := numDigits_pos f.coeff
      rw [hsf]; simp only [Bool.false_eq_true, if_false]
      omega)
    rw [hsf] at hsc
    have hne0 : ¬ (f.coeff : Int) = 0 := by omega
    simp only [Bool.false_eq_true, if_false, hne0, Int.natAbs_natCast, h0, false_and] at hsc ⊢
    rw [hsc]
    simp only [h0, false_and, if_false]

end Scalars
end Ion

namespace Ion.Scalars
open Ion Ion.Fields

/-- The written form of the fields of a precision. -/
def fieldBytes (p : Precision) (d : DateTime) (frac : List Nat) : List Nat :=
  writeVarUInt d.year
    ++ (if p.includesMonth then writeVarUInt d.month else [])
    ++ (if p.includesDay then writeVarUInt d.day else [])
    ++ (if p.includesMinute then writeVarUInt d.hour ++ writeVarUInt d.minute else [])
    ++ (if p.includesSecond then writeVarUInt d.second ++ frac else [])

/-- The parser on the fields the writer emits: it reconstructs exactly the fields of the precision. -/
theorem parseTimestamp_fields (tz : Option Int) (h : OffsetOk tz) (p : Precision) (u : DateTime) (fb : List Nat)
    (fo : Option Dec)
    (hf : (if (toBytes fb).isEmpty then (.ok none : Except PyErr (Option Dec)) else do
        let f ← parseDecimal (toBytes fb)
        return if f.coeff = 0 ∧ f.exp > -1 then none else some f) = .ok fo) :
    parseTimestamp (toBytes (offsetField tz ++ fieldBytes p u fb)) =
      Timestamp.adjustFromUtcFields
        ⟨u.year, if p.includesMonth then u.month else 1, if p.includesDay then u.day else 1,
          if p.includesMinute then u.hour else 0, if p.includesMinute then u.minute else 0,
          if p.includesSecond then u.second else 0, none, tz, some p, none, if p.includesSecond then fo else none⟩ := by
  unfold parseTimestamp
  rw [toBytes_append]
  obtain ⟨s, v, hp, ht⟩ := parse_offset tz h (toBytes (fieldBytes p u fb))
  rw [hp]
  simp only [bind, Except.bind, pure, Except.pure] at ht hf ⊢
  rw [ht]
  cases p <;>
    simp only [fieldBytes, Precision.includesMonth, Precision.includesDay, Precision.includesMinute,
      Precision.includesSecond, Precision.toNat, decide_true, decide_false, if_true, if_false, Bool.false_eq_true,
      List.append_nil, Nat.le_refl, Nat.reduceLeDiff, toBytes_append, List.append_assoc, toBytes_nil]
  · have := parseVarLoop_writeVarUInt u.year []
    rw [List.append_nil] at this
    simp only [this, List.isEmpty_nil, if_true]
  · have := parseVarLoop_writeVarUInt u.month []
    have he := isEmpty_varUInt u.month []
    rw [List.append_nil] at this he
    simp only [parseVarLoop_writeVarUInt, isEmpty_varUInt, this, he, Bool.false_eq_true, if_false, List.isEmpty_nil, if_true]
  · have := parseVarLoop_writeVarUInt u.day []
    have he := isEmpty_varUInt u.day []
    rw [List.append_nil] at this he
    simp only [parseVarLoop_writeVarUInt, isEmpty_varUInt, this, he, Bool.false_eq_true, if_false, List.isEmpty_nil, if_true]
  · have := parseVarLoop_writeVarUInt u.minute []
    have he := isEmpty_varUInt u.minute []
    rw [List.append_nil] at this he
    simp only [parseVarLoop_writeVarUInt, isEmpty_varUInt, this, he, Bool.false_eq_true, if_false, List.isEmpty_nil, if_true]
  · simp only [parseVarLoop_writeVarUInt, isEmpty_varUInt, Bool.false_eq_true, if_false]
    rw [hf]

/-- The parts of the written form. -/
theorem timestampBody_ts (t : Timestamp) (bs : List Nat) (h : timestampBody (.ts t) = .ok bs) :
    ∃ u fb, (match t.dt.tz with | none => u = t.dt | some o => t.dt.addMicros (-o) = .ok u) ∧
      ((t.precision.getD .second).includesSecond = true → writeTimestampFraction t.frac = .ok fb) ∧
      bs = offsetField t.dt.tz ++ fieldBytes (t.precision.getD .second) u fb := by
  unfold timestampBody at h
  simp only [TimeVal.dateTime, TimeVal.precision, bind, Except.bind, pure, Except.pure] at h
  obtain ⟨p, hpe⟩ : ∃ p, t.precision.getD .second = p := ⟨_, rfl⟩
  simp only [hpe] at h ⊢
  cases htz : t.dt.tz with
  | none =>
    rw [htz] at h
    simp only at h
    by_cases hp : p.includesSecond = true
    · cases hw : writeTimestampFraction t.frac with
      | error e => rw [if_pos hp, hw] at h; cases h
      | ok fb =>
        rw [if_pos hp, hw] at h
        simp only [Except.ok.injEq] at h
        exact ⟨t.dt, fb, rfl, fun _ => rfl, by rw [← h]; simp [fieldBytes, offsetField, hp]⟩
    · rw [if_neg hp] at h
      simp only [Except.ok.injEq] at h
      exact ⟨t.dt, [], rfl, fun hc => absurd hc hp, by rw [← h]; simp [fieldBytes, offsetField, hp]⟩
  | some o =>
    rw [htz] at h
    simp only at h
    cases ha : t.dt.addMicros (-o) with
    | error e => rw [ha] at h; cases h
    | ok u =>
      rw [ha] at h
      simp only at h
      by_cases hp : p.includesSecond = true
      · cases hw : writeTimestampFraction t.frac with
        | error e => rw [if_pos hp, hw] at h; cases h
        | ok fb =>
          rw [if_pos hp, hw] at h
          simp only [Except.ok.injEq] at h
          exact ⟨u, fb, ha, fun _ => rfl, by rw [← h]; simp [fieldBytes, offsetField, hp]⟩
      · rw [if_neg hp] at h
        simp only [Except.ok.injEq] at h
        exact ⟨u, [], ha, fun hc => absurd hc hp, by rw [← h]; simp [fieldBytes, offsetField, hp]⟩

/-- What reading back a timestamp must give: the same timestamp, cut to its precision (`SECOND` if unspecified). -/
def expected (t : Timestamp) : Timestamp :=
  let p := t.precision.getD .second
  if p = .second then ⟨t.dt, some .second, t.fracPrecision, t.frac⟩ else ⟨t.dt.cut p, some p, 0, Dec.zero⟩

/-- The constructor on the expected fields. -/
theorem new_expected {a : TimestampArgs} {t : Timestamp} (hnew : Timestamp.new a = .ok t)
    (hfr : FracOk t.frac) (p : Precision) (hp : t.precision.getD .second = p) (d : DateTime) (hdv : d.Valid)
    (hdm : p = .second → d.micro = t.dt.micro) :
    Timestamp.new ⟨d.year, if p.includesMonth then d.month else 1, if p.includesDay then d.day else 1,
          if p.includesMinute then d.hour else 0, if p.includesMinute then d.minute else 0,
          if p.includesSecond then d.second else 0, none, d.tz, some p, none,
          if p.includesSecond then (if t.frac.coeff = 0 ∧ t.frac.exp = 0 then none else some t.frac) else none⟩
      = .ok (if p = .second then ⟨d, some p, t.fracPrecision, t.frac⟩ else ⟨d.cut p, some p, 0, Dec.zero⟩) := by
  have hcv := fun p => DateTime.cut_valid hdv p
  obtain ⟨-, -, -, -, -, -, -, -, -, -, hidem⟩ := Timestamp.new_inv hnew
  cases p with
  | second =>
    simp only [Precision.includesMonth, Precision.includesDay, Precision.includesMinute, Precision.includesSecond,
      Precision.toNat, decide_true, if_true, Nat.le_refl, Nat.reduceLeDiff]
    by_cases hz : t.frac.coeff = 0 ∧ t.frac.exp = 0
    · rw [if_pos hz]
      have hzf : t.frac = Dec.zero := by
        have h3 := hfr.2.2
        cases hft : t.frac with
        | mk s c e =>
        rw [hft] at hz h3
        simp only at hz h3
        have : s = false := by
          cases s with
          | false => rfl
          | true => exact absurd ⟨hz.1, hz.2, rfl⟩ h3
        rw [this, hz.1, hz.2]; rfl
      have hz0 : Timestamp.normalise none none (some Dec.zero) = .ok (0, 0, Dec.zero) := by decide
      rw [hzf, hz0] at hidem
      simp only [Except.ok.injEq, Prod.mk.injEq] at hidem
      have hm0 : d.micro = 0 := by rw [hdm rfl]; omega
      have hv : (⟨d.year, d.month, d.day, d.hour, d.minute, d.second, 0, d.tz⟩ : DateTime).Valid := by
        rw [← hm0]; exact hdv
      rw [Timestamp.new_nofrac hv, ← hidem.2.1, hzf]
      congr 2
      rw [← hm0]
    · rw [if_neg hz]
      rw [← hdm rfl] at hidem
      exact Timestamp.new_frac hidem hdv
  | year =>
    simp only [Precision.includesMonth, Precision.includesDay, Precision.includesMinute, Precision.includesSecond,
      Precision.toNat, decide_true, if_true, Nat.reduceLeDiff, decide_false, Bool.false_eq_true, if_false,
      reduceCtorEq]
    exact Timestamp.new_nofrac (hcv .year)
  | month =>
    simp only [Precision.includesMonth, Precision.includesDay, Precision.includesMinute, Precision.includesSecond,
      Precision.toNat, decide_true, if_true, Nat.reduceLeDiff, decide_false, Bool.false_eq_true, if_false, Nat.le_refl,
      reduceCtorEq]
    exact Timestamp.new_nofrac (hcv .month)
  | day =>
    simp only [Precision.includesMonth, Precision.includesDay, Precision.includesMinute, Precision.includesSecond,
      Precision.toNat, decide_true, if_true, Nat.reduceLeDiff, decide_false, Bool.false_eq_true, if_false, Nat.le_refl,
      reduceCtorEq]
    exact Timestamp.new_nofrac (hcv .day)
  | minute =>
    simp only [Precision.includesMonth, Precision.includesDay, Precision.includesMinute, Precision.includesSecond,
      Precision.toNat, decide_true, if_true, Nat.reduceLeDiff, decide_false, Bool.false_eq_true, if_false, Nat.le_refl,
      reduceCtorEq]
    exact Timestamp.new_nofrac (hcv .minute)

theorem timestamp_roundtrip {a : TimestampArgs} {t : Timestamp} (hnew : Timestamp.new a = .ok t)
    (hoff : OffsetOk t.dt.tz) (hfr : FracOk t.frac)
    (hdate : (t.precision.getD .second).includesMinute = true ∨ t.dt.tz = none ∨ t.dt.tz = some 0)
    {bs : List Nat} (h : timestampBody (.ts t) = .ok bs) :
    parseTimestamp (toBytes bs) = .ok (expected t) := by
  obtain ⟨u, fb, hu, hfb, rfl⟩ := timestampBody_ts t bs h
  have hinv := Timestamp.new_inv hnew
  obtain ⟨hv, -, -, -, -, -, -, -, -, -, hidem⟩ := hinv
  have hun := (Timestamp.normalise_frac _ _).1 hidem
  have hzn : ¬ (t.frac.coeff = 0 ∧ t.frac.exp > 0) := by
    intro hc
    obtain ⟨-, m, -, hr⟩ := hun
    simp only [hc, and_self, if_true, Prod.mk.injEq] at hr
    have := hc.2
    rw [hr.2.2] at this
    simp [Dec.zero] at this
  obtain ⟨fb', hfb', hfo⟩ := fraction_roundtrip t.frac hfr hun.1 hzn
  unfold expected
  generalize hp : t.precision.getD .second = p at *
  have hfin : ∃ fo, (if (toBytes fb).isEmpty then (.ok none : Except PyErr (Option Dec)) else do
        let f ← parseDecimal (toBytes fb)
        return if f.coeff = 0 ∧ f.exp > -1 then none else some f) = .ok fo ∧
      (p.includesSecond = true → fo = if t.frac.coeff = 0 ∧ t.frac.exp = 0 then none else some t.frac) ∨
      p.includesSecond = false := by
    by_cases hs : p.includesSecond = true
    · have := hfb hs
      rw [hfb'] at this
      simp only [Except.ok.injEq] at this
      subst this
      exact ⟨_, .inl ⟨hfo, fun _ => rfl⟩⟩
    · exact ⟨none, .inr (by simpa using hs)⟩
  have hparse : ∃ fo, parseTimestamp (toBytes (offsetField t.dt.tz ++ fieldBytes p u fb)) =
      Timestamp.adjustFromUtcFields
        ⟨u.year, if p.includesMonth then u.month else 1, if p.includesDay then u.day else 1,
          if p.includesMinute then u.hour else 0, if p.includesMinute then u.minute else 0,
          if p.includesSecond then u.second else 0, none, t.dt.tz, some p, none, if p.includesSecond then fo else none⟩ ∧
      (p.includesSecond = true → fo = if t.frac.coeff = 0 ∧ t.frac.exp = 0 then none else some t.frac) := by
    obtain ⟨fo, hfin⟩ := hfin
    rcases hfin with ⟨h1, h2⟩ | hs
    · exact ⟨fo, parseTimestamp_fields _ hoff p u fb fo h1, h2⟩
    · have hsame : fieldBytes p u fb = fieldBytes p u [] := by simp [fieldBytes, hs]
      rw [hsame]
      exact ⟨none, parseTimestamp_fields _ hoff p u [] none rfl, fun hc => by rw [hs] at hc; cases hc⟩
  obtain ⟨fo, hparse, hfo2⟩ := hparse
  rw [hparse]
  clear hparse hfin hfb
  have hfo3 : (if p.includesSecond then fo else none) =
      if p.includesSecond then (if t.frac.coeff = 0 ∧ t.frac.exp = 0 then none else some t.frac) else none := by
    by_cases hs : p.includesSecond = true
    · simp only [hs, if_true]; exact hfo2 hs
    · simp [hs]
  rw [hfo3]
  have hresult : (if p = .second then ⟨t.dt, some p, t.fracPrecision, t.frac⟩ else ⟨t.dt.cut p, some p, 0, Dec.zero⟩ : Timestamp)
      = (if p = .second then ⟨t.dt, some .second, t.fracPrecision, t.frac⟩ else ⟨t.dt.cut p, some p, 0, Dec.zero⟩) := by
    by_cases hs : p = .second
    · simp [hs]
    · simp [hs]
  rw [← hresult]
  unfold Timestamp.adjustFromUtcFields
  by_cases hzero : t.dt.tz = none ∨ t.dt.tz = some 0
  · have hut : u = t.dt := by
      rcases hzero with h0 | h0
      · rw [h0] at hu; exact hu
      · rw [h0] at hu
        simp only [Int.neg_zero] at hu
        rw [DateTime.addMicros_zero hv] at hu
        simpa using hu.symm
    rw [hut]
    rw [new_expected hnew hfr p hp t.dt hv (fun _ => rfl)]
    simp only [bind, Except.bind, pure, Except.pure]
    have htzr : (if p = .second then ⟨t.dt, some p, t.fracPrecision, t.frac⟩ else ⟨t.dt.cut p, some p, 0, Dec.zero⟩ : Timestamp).dt.tz
        = t.dt.tz := by
      split
      · rfl
      · cases p <;> rfl
    rcases hzero with h0 | h0
    · split
      · rfl
      · rename_i off ho
        rw [htzr, h0] at ho; cases ho
    · split
      · rfl
      · rename_i off ho
        rw [htzr, h0] at ho
        simp only [Option.some.injEq] at ho
        rw [if_pos ho.symm]
  · have hmin : p.includesMinute = true := by
      rcases hdate with h | h
      · exact h
      · exact absurd h hzero
    cases htz : t.dt.tz with
    | none => exact absurd (.inl htz) hzero
    | some o =>
      have ho0 : o ≠ 0 := fun h => hzero (.inr (by rw [htz, h]))
      obtain ⟨hm, hlo, hhi⟩ := hoff o htz
      rw [htz] at hu
      simp only at hu
      have hno : (-o) % minuteMicros = 0 := by unfold minuteMicros at *; omega
      have hbo : -dayMicros < -o ∧ -o < dayMicros := by omega
      obtain ⟨huv, hutz⟩ := DateTime.addMicros_valid hv hbo hu
      -- the time of day modulo a minute is untouched
      have husec : u.second = t.dt.second ∧ u.micro = t.dt.micro := by
        have h3 := hv.2.2.2.2.2.2.2.2
        have := DateTime.addMicros_minutes hv hbo hno t.dt.second t.dt.micro h3.1 h3.2
        rw [DateTime.withSeconds_self, hu] at this
        simp only [Except.map, Except.ok.injEq] at this
        rw [this]
        exact ⟨rfl, rfl⟩
      have hback := DateTime.addMicros_inverse hv ⟨hlo, hhi⟩ hu
      have hne := new_expected hnew hfr p hp u huv (fun _ => husec.2)
      rw [hutz, htz] at hne
      rw [hne]
      simp only [bind, Except.bind, pure, Except.pure]
      have htzr : (if p = .second then ⟨u, some p, t.fracPrecision, t.frac⟩ else ⟨u.cut p, some p, 0, Dec.zero⟩ : Timestamp).dt.tz
          = some o := by
        split
        · rw [← htz, ← hutz]
        · cases p <;> (simp only [DateTime.cut]; rw [hutz, htz])
      have hadd : (if p = .second then ⟨u, some p, t.fracPrecision, t.frac⟩ else ⟨u.cut p, some p, 0, Dec.zero⟩ : Timestamp).dt.addMicros o
          = .ok (t.dt.cut p) := by
        split
        · rename_i hs; rw [hs]; exact hback
        · have hpm : p = .minute := by
            cases p <;> simp_all [Precision.includesMinute, Precision.toNat]
          subst hpm
          have hx : (u.cut .minute) = u.withSeconds 0 0 := rfl
          simp only
          rw [hx, DateTime.addMicros_minutes huv ⟨hlo, hhi⟩ hm 0 0 (by omega) (by omega), hback]
          rfl
      have hcases : p = .second ∨ p = .minute := by
        cases p <;> simp_all [Precision.includesMinute, Precision.toNat]
      rw [htzr]
      simp only [ho0, if_false]
      rw [hadd]
      simp only
      rcases hcases with rfl | rfl
      · simp only [if_true, DateTime.cut]
        have := Timestamp.new_frac (p := some .second) (f := t.frac) (fp := t.fracPrecision) (us := t.dt.micro) hidem hv
        rw [htz] at this
        rw [this]
        congr 2
        rw [← htz]
      · have hcv := DateTime.cut_valid hv .minute
        simp only [reduceCtorEq, if_false, DateTime.cut] at hcv ⊢
        have hn : Timestamp.normalise none none (some Dec.zero) = .ok (((0 : Nat) : Int), 0, Dec.zero) := by decide
        have := Timestamp.new_frac (p := some .minute) hn hcv
        rw [htz] at this ⊢
        exact this

end Ion.Scalars
