import Verif.TextSafeRun
import Verif.Props.EventEquality
import Verif.TimestampSpec
import Mathlib.Data.Rat.Floor
import Mathlib.Algebra.Order.Field.Basic
import Mathlib.Tactic.Positivity
import Mathlib.Algebra.Order.Floor.Semifield
/-!
# Events whose value has the class of their type: the readers

Invariants of the readers that are needed for C64.
-/
set_option linter.unusedSimpArgs false
namespace Ion.EventValues
open Ion Ion.EventEquality

/-- A moment that exists: a date of the calendar and a time of the day, with an offset of whole minutes of less than a day, a
precision, and a fraction of a second from 0 to below 1, whose digits (at most six) are counted, and which, if it has at most 28 digits,
has the microseconds of the date; without seconds unless the precision is the second; and the constructor, given its parts, makes it
again. -/
structure Moment (t : Timestamp) : Prop where
  date : t.dt.Valid
  precision : t.precision ≠ none
  offset : ∀ o, t.dt.tz = some o → (∃ minutes : Int, o = minutes * 60000000) ∧ -86400000000 < o ∧ o < 86400000000
  fraction : 0 ≤ Equivalence.Spec.fraction t.frac ∧ Equivalence.Spec.fraction t.frac < 1
  digits : t.fracPrecision = min (-t.frac.exp) 6 ∧ 0 ≤ t.fracPrecision
  micro : t.frac.coeff < 10 ^ 28 → (t.dt.micro : Int) = ⌊1000000 * Equivalence.Spec.fraction t.frac⌋
  coarse : ∀ p, t.precision = some p → p ≠ .second → t.frac = ⟨false, 0, 0⟩ ∧ t.dt.second = 0 ∧ t.dt.micro = 0
  again : Timestamp.new { year := t.dt.year, month := t.dt.month, day := t.dt.day, hour := t.dt.hour, minute := t.dt.minute, second := t.dt.second, micro := none, tz := t.dt.tz, precision := t.precision, fracPrecision := none, frac := some t.frac } = .ok t

/-- The fields of the date and time that the precision does not include are at their least value. -/
def Truncated (t : Timestamp) : Prop := ∀ p, t.precision = some p → t.dt.cut p = t.dt

/-- The same, for a timestamp that has a time of the day or no offset from UTC. -/
def TruncatedInUtc (t : Timestamp) : Prop := ∀ p, t.precision = some p → p.includesMinute = true ∨ t.dt.tz = none ∨ t.dt.tz = some 0 → t.dt.cut p = t.dt

/-- The value fits the Ion type, and a timestamp is a moment that exists, and as `R` says. -/
def FitsWell (R : Timestamp → Prop) : Option IonType → Option PyVal → Prop
  | _, none => True
  | some .bool, some (.bool _) => True
  | some .int, some (.int _) => True
  | some .float, some (.float _) => True
  | some .decimal, some (.decimal _) => True
  | some .timestamp, some (.timestamp (.ts t)) => Moment t ∧ R t
  | some .symbol, some (.sym _) => True
  | some .string, some (.str _) => True
  | some .clob, some (.bytes _) => True
  | some .blob, some (.bytes _) => True
  | _, _ => False

theorem FitsWell.fits {R : Timestamp → Prop} {ty : Option IonType} {v : Option PyVal} (h : FitsWell R ty v) : Fits ty v := by
  unfold FitsWell at h
  unfold Fits
  split at h
  all_goals first
    | trivial
    | exact ⟨h.1.date, h.1.precision⟩

/-- The value of the event, if reading it does not raise, is nothing or a Python object of the class for the Ion type of the event;
and only a scalar has a value. -/
def ValueFits (R : Timestamp → Prop) (e : IonEvent) : Prop :=
  match e.value with
  | .error _ => True
  | .ok v => FitsWell R e.ionType v ∧ (v ≠ none → e.eventType = .scalar)

theorem fits_none {R : Timestamp → Prop} (e : IonEvent) (h : e.value = .ok none) : ValueFits R e := by
  unfold ValueFits
  rw [h]
  refine ⟨?_, fun h => absurd rfl h⟩
  cases e.ionType with
  | none => trivial
  | some t => cases t <;> trivial

/-- What arguments of the constructor the readers give. -/
structure Given (a : TimestampArgs) : Prop where
  micro : a.micro = none
  digits : a.fracPrecision = none
  second : a.precision ≠ some .second → a.second = 0 ∧ (a.frac = none ∨ a.frac = some ⟨false, 0, 0⟩)
  minute : ∀ p, a.precision = some p → p.includesMinute = false → a.hour = 0 ∧ a.minute = 0
  day : ∀ p, a.precision = some p → p.includesDay = false → a.day = 1
  month : ∀ p, a.precision = some p → p.includesMonth = false → a.month = 1

theorem given_coarse {a : TimestampArgs} {t : Timestamp} (hg : a.micro = none ∧ a.fracPrecision = none ∧ (a.precision ≠ some .second → a.second = 0 ∧ (a.frac = none ∨ a.frac = some ⟨false, 0, 0⟩)))
    (h : Timestamp.new a = .ok t) (hp : a.precision ≠ some .second) : t.frac = ⟨false, 0, 0⟩ ∧ t.dt.second = 0 ∧ t.dt.micro = 0 := by
  have hi := Timestamp.new_inv h
  obtain ⟨g1, g2, g3⟩ := hg
  obtain ⟨g4, g5⟩ := g3 hp
  have hn := hi.2.2.2.2.2.2.2.2.2.1
  have hs := hi.2.2.2.2.2.2.2.2.1
  rw [g1, g2] at hn
  rcases g5 with g5 | g5 <;> rw [g5] at hn
  · have e : Timestamp.normalise none none none = .ok (0, 0, Dec.zero) := by decide
    rw [e] at hn
    simp only [Except.ok.injEq, Prod.mk.injEq] at hn
    exact ⟨hn.2.2.symm, by rw [hs, g4], by omega⟩
  · have e : Timestamp.normalise none none (some ⟨false, 0, 0⟩) = .ok (0, 0, ⟨false, 0, 0⟩) := by decide
    rw [e] at hn
    simp only [Except.ok.injEq, Prod.mk.injEq] at hn
    exact ⟨hn.2.2.symm, by rw [hs, g4], by omega⟩

theorem given_truncated {a : TimestampArgs} {t : Timestamp} (hg : Given a) (h : Timestamp.new a = .ok t) : Truncated t := by
  have hi := Timestamp.new_inv h
  obtain ⟨_, _, h3, _, h5, h6, h7, h8, _⟩ := hi
  intro p hp
  rw [h3] at hp
  by_cases hs : p = .second
  · subst hs; rfl
  obtain ⟨_, k1, k2⟩ := given_coarse ⟨hg.micro, hg.digits, hg.second⟩ h (by rw [hp]; simpa using hs)
  have km := hg.minute p hp
  have kd := hg.day p hp
  have kmo := hg.month p hp
  obtain ⟨⟨y, mo, d, ho, mi, s, us, tz⟩, pr, fp, fr⟩ := t
  simp only at h5 h6 h7 h8 k1 k2
  subst h5 h6 h7 h8 k1 k2
  cases p <;> simp [Precision.includesMinute, Precision.includesDay, Precision.includesMonth, Precision.toNat] at km kd kmo hs <;>
    simp [DateTime.cut, km, kd, kmo]

theorem timestamp_fits {a : TimestampArgs} {t : Timestamp} (h : Timestamp.new a = .ok t) (hp : a.precision ≠ none) (ho : Scalars.OffsetOk a.tz)
    (hg : a.micro = none ∧ a.fracPrecision = none ∧ (a.precision ≠ some .second → a.second = 0 ∧ (a.frac = none ∨ a.frac = some ⟨false, 0, 0⟩))) : Moment t := by
  have hi := Timestamp.new_inv h
  obtain ⟨hu, m, hm, hr⟩ := (Timestamp.normalise_frac _ _).1 hi.2.2.2.2.2.2.2.2.2.2
  have hz : ¬ (t.frac.coeff = 0 ∧ t.frac.exp > 0) := by
    intro hc
    simp only [hc, and_self, if_true, Prod.mk.injEq] at hr
    have := hc.2
    rw [hr.2.2] at this
    simp [Dec.zero] at this
  simp only [if_neg hz, Prod.mk.injEq, and_true] at hr
  have hneg : t.frac.exp ≤ 0 := by
    unfold Dec.inUnit at hu
    by_cases he : t.frac.exp ≥ 0
    · simp only [he, if_true, Bool.and_eq_true, decide_eq_true_eq] at hu
      omega
    · omega
  have hfr : Equivalence.Spec.fraction t.frac = (t.frac.coeff : ℚ) / (10 : ℚ) ^ (-t.frac.exp).toNat := by
    unfold Equivalence.Spec.fraction
    obtain ⟨n, hn⟩ : ∃ n : Nat, t.frac.exp = -(n : Int) := ⟨(-t.frac.exp).toNat, by omega⟩
    have hs : (if t.frac.sign = true then (-1 : ℚ) else 1) * (t.frac.coeff : ℚ) = t.frac.coeff := by
      unfold Dec.inUnit at hu
      simp only [Bool.and_eq_true, Bool.or_eq_true, decide_eq_true_eq, Bool.not_eq_true'] at hu
      rcases hu.1 with h0 | h0
      · simp [h0]
      · simp [h0]
    rw [hs, hn]
    simp [zpow_neg, div_eq_mul_inv]
  have hlt : t.frac.coeff < 10 ^ (-t.frac.exp).toNat := by
    unfold Dec.inUnit at hu
    simp only [Bool.and_eq_true] at hu
    have := hu.2
    by_cases he : t.frac.exp ≥ 0
    · simp only [he, if_true, decide_eq_true_eq] at this
      rw [this]; exact Nat.pow_pos (by omega)
    · simpa only [he, if_false, decide_eq_true_eq] using this
  have hpos : (0 : ℚ) < (10 : ℚ) ^ (-t.frac.exp).toNat := by positivity
  refine ⟨hi.1, by rw [hi.2.2.1]; exact hp, ?_, ?_, ⟨hr.2, by rw [hr.2]; omega⟩, ?_, ?_, ?_⟩
  · intro o hto
    rw [hi.2.1] at hto
    obtain ⟨h1, h2, h3⟩ := ho o hto
    unfold minuteMicros at h1
    unfold dayMicros at h2 h3
    exact ⟨⟨o / 60000000, by omega⟩, by omega, by omega⟩
  · rw [hfr]
    refine ⟨by positivity, (div_lt_one hpos).2 ?_⟩
    exact_mod_cast hlt
  · intro h28
    have := (Scalars.new_frac_facts h h28).2.2.2
    rw [this, hfr, ← mul_div_assoc]
    have e : (1000000 : ℚ) * (t.frac.coeff : ℚ) / (10 : ℚ) ^ (-t.frac.exp).toNat =
        ((1000000 * t.frac.coeff : Nat) : ℚ) / ((10 ^ (-t.frac.exp).toNat : Nat) : ℚ) := by push_cast; rfl
    rw [e]
    rw [← Nat.floor_div_eq_div (K := ℚ), Int.natCast_floor_eq_floor (by positivity)]
  · intro p hpt hne
    rw [hi.2.2.1] at hpt
    exact given_coarse hg h (by rw [hpt]; simpa using hne)
  · exact Timestamp.new_frac hi.2.2.2.2.2.2.2.2.2.2 hi.1

theorem moment_offset {t : Timestamp} (h : Moment t) : Scalars.OffsetOk t.dt.tz := by
  intro o ho
  obtain ⟨⟨k, rfl⟩, h2, h3⟩ := h.offset o ho
  unfold minuteMicros dayMicros
  exact ⟨by omega, by omega, by omega⟩

theorem adjust_fits {a : TimestampArgs} {t : Timestamp} (h : Timestamp.adjustFromUtcFields a = .ok t) (hp : a.precision ≠ none) (ho : Scalars.OffsetOk a.tz)
    (hg : Given a) : Moment t ∧ TruncatedInUtc t := by
  unfold Timestamp.adjustFromUtcFields at h
  cases hn : Timestamp.new a with
  | error e => rw [hn] at h; cases h
  | ok raw =>
    rw [hn] at h
    have hr := timestamp_fits hn hp ho ⟨hg.micro, hg.digits, hg.second⟩
    have ht := given_truncated hg hn
    have hrp : raw.precision = a.precision := (Timestamp.new_inv hn).2.2.1
    simp only [bind, Except.bind, pure, Except.pure] at h
    split at h
    · cases h; exact ⟨hr, fun p hp _ => ht p hp⟩
    · rename_i off hoff
      split at h
      · cases h; exact ⟨hr, fun p hp _ => ht p hp⟩
      · rename_i hne
        split at h
        · cases h
        · rename_i adj hadj
          have hor := moment_offset hr off hoff
          have hsec : raw.precision ≠ some .second → adj.second = 0 ∧ raw.frac = ⟨false, 0, 0⟩ ∧ adj.micro = 0 := by
            intro hns
            obtain ⟨c1, c2, c3⟩ := given_coarse ⟨hg.micro, hg.digits, hg.second⟩ hn (by rw [← hrp]; exact hns)
            have := DateTime.addMicros_minutes hr.date ⟨hor.2.1, hor.2.2⟩ hor.1 0 0 (by omega) (by omega)
            have e : raw.dt.withSeconds 0 0 = raw.dt := by
              rw [← DateTime.withSeconds_self raw.dt, c2, c3]; rfl
            rw [e, hadj] at this
            simp only [Except.map, Except.ok.injEq] at this
            exact ⟨by rw [this]; rfl, c1, by rw [this]; rfl⟩
          have hm : Moment t := timestamp_fits h hr.precision (moment_offset hr) ⟨rfl, rfl, fun hns => ⟨(hsec hns).1, .inr (by rw [(hsec hns).2.1])⟩⟩
          refine ⟨hm, fun p hpt hz => ?_⟩
          have hi := Timestamp.new_inv h
          have htz : t.dt.tz = some off := by rw [hi.2.1]; exact hoff
          rcases hz with hz | hz | hz
          · by_cases hs : p = .second
            · subst hs; rfl
            · obtain ⟨_, c2, c3⟩ := hm.coarse p hpt hs
              obtain ⟨⟨y, mo, d, ho, mi, s, us, tz⟩, pr, fp, fr⟩ := t
              simp only at c2 c3
              subst c2 c3
              cases p <;> simp [Precision.includesMinute, Precision.toNat] at hz hs <;> rfl
          · rw [htz] at hz; cases hz
          · rw [htz] at hz; cases hz; exact absurd rfl hne

/-- The offset that the constructor of the zone accepts. -/
theorem zone_ok {minutes d : Int} (h : offsetTZInfo (minutes * minuteMicros) = .ok d) : Scalars.OffsetOk (some d) := by
  unfold offsetTZInfo at h
  split at h
  · cases h
  · rename_i hb
    cases h
    rintro o ⟨⟩
    unfold minuteMicros dayMicros at *
    omega

theorem noZone_ok : Scalars.OffsetOk none := fun _ h => by cases h

end Ion.EventValues

namespace Ion.EventValues.Binary
open Ion Ion.RawReader Ion.EventEquality

theorem parse_fits {data : Bytes} {t : Timestamp} (h : Scalars.parseTimestamp data = .ok t) : Moment t ∧ TruncatedInUtc t := by
  unfold Scalars.parseTimestamp at h
  simp only [bind, Except.bind, pure, Except.pure] at h
  split at h
  · cases h
  rename_i p hp
  split at h
  · cases h
  rename_i tz htz
  have hz : Scalars.OffsetOk tz := by
    split at htz
    · cases htz; exact noZone_ok
    · split at htz
      · cases htz
      · rename_i d hd
        cases htz
        exact zone_ok hd
  split at h
  · cases h
  rename_i y hy
  split at h
  · cases h
  rename_i mo hmo
  split at h
  · cases h
  rename_i d hd
  split at h
  · cases h
  rename_i mi hmi
  split at h
  · cases h
  rename_i s hs
  split at h
  · cases h
  rename_i f hf
  have emo : (mo = (1, .year, y.2) ∧ y.2.isEmpty = true) ∨ mo.2.1 = .month := by
    split at hmo
    · cases hmo; exact .inl ⟨rfl, by assumption⟩
    · split at hmo
      · cases hmo
      · cases hmo; exact .inr rfl
  have ed : (d = (1, mo.2.1, mo.2.2) ∧ mo.2.2.isEmpty = true) ∨ d.2.1 = .day  := by
    split at hd
    · cases hd; exact .inl ⟨rfl, by assumption⟩
    · split at hd
      · cases hd
      · cases hd; exact .inr rfl
  have emi : (mi = (0, 0, d.2.1, d.2.2) ∧ d.2.2.isEmpty = true) ∨ mi.2.2.1 = .minute  := by
    split at hmi
    · cases hmi; exact .inl ⟨rfl, by assumption⟩
    · split at hmi
      · cases hmi
      · split at hmi
        · cases hmi
        · cases hmi; exact .inr rfl
  have es : (s = (0, mi.2.2.1, mi.2.2.2) ∧ mi.2.2.2.isEmpty = true) ∨ s.2.1 = .second  := by
    split at hs
    · cases hs; exact .inl ⟨rfl, by assumption⟩
    · split at hs
      · cases hs
      · cases hs; exact .inr rfl
  have ef : s.2.2.isEmpty = true → f = none := by
    intro he
    rw [if_pos he] at hf
    cases hf; rfl
  refine adjust_fits h (by simp) hz ⟨rfl, rfl, ?_, ?_, ?_, ?_⟩
  · intro hp
    rcases es with ⟨rfl, e⟩ | e
    · exact ⟨rfl, .inl (ef e)⟩
    · exact absurd (by simp only [e]) hp
  · rintro p ⟨⟩ hp
    rcases es with ⟨rfl, e⟩ | e
    · rcases emi with ⟨rfl, e2⟩ | e2
      · exact ⟨rfl, rfl⟩
      · simp only [e2] at hp; cases hp
    · rw [e] at hp; cases hp
  · rintro p ⟨⟩ hp
    rcases es with ⟨rfl, e⟩ | e
    · rcases emi with ⟨rfl, e2⟩ | e2
      · rcases ed with ⟨rfl, _⟩ | e3
        · rfl
        · simp only [e3] at hp; cases hp
      · simp only [e2] at hp; cases hp
    · rw [e] at hp; cases hp
  · rintro p ⟨⟩ hp
    rcases es with ⟨rfl, e⟩ | e
    · rcases emi with ⟨rfl, e2⟩ | e2
      · rcases ed with ⟨rfl, _⟩ | e3
        · rcases emo with ⟨rfl, _⟩ | e4
          · rfl
          · simp only [e4] at hp; cases hp
        · simp only [e3] at hp; cases hp
      · simp only [e2] at hp; cases hp
    · rw [e] at hp; cases hp

theorem scalar_fits (k : ScalarKind) (data : Bytes) : match scalarValue k data with | .error _ => True | .ok v => FitsWell TruncatedInUtc (some k.ionType) v := by
  cases k with
  | float => simp only [scalarValue]; cases Scalars.parseFloat data <;> trivial
  | decimal => simp only [scalarValue]; cases Scalars.parseDecimal data <;> trivial
  | string => simp only [scalarValue]; cases Utf8.decode data <;> trivial
  | timestamp =>
    simp only [scalarValue]
    cases h : Scalars.parseTimestamp data with
    | error e => trivial
    | ok t => exact parse_fits h
  | _ => trivial

theorem scalarEvent_fits {ctx : Ctx} {q : Queue} {ty : IonType} {value : Except PyErr (Option PyVal)} {e : IonEvent}
    (hv : match value with | .error _ => True | .ok v => FitsWell TruncatedInUtc (some ty) v) (h : RawReader.scalarEvent ctx q ty value = .ok e) : ValueFits TruncatedInUtc e := by
  unfold RawReader.scalarEvent at h
  dsimp only at h
  have : ValueFits TruncatedInUtc { eventType := .scalar, ionType := some ty, value := value, fieldName := ctx.fieldName.map .tok, annotations := (ctx.annotations.getD []).map .tok, depth := some ctx.depth } := by
    unfold ValueFits
    cases value with
    | error e => trivial
    | ok v => exact ⟨hv, fun _ => rfl⟩
  repeat' split at h
  all_goals first | (cases h; done) | (cases h; exact this)

/-- Every event that is delivered fits. -/
def OutcomeFits : Outcome → Prop
  | .emit e _ _ => ValueFits TruncatedInUtc e
  | _ => True

theorem startRead_fits {q : Queue} {stack : List Frame} {depth : Nat} {limit : Option Int} {length : Int} {skip atEnd : Bool} {task : Task} :
    OutcomeFits (startRead q stack depth limit length skip atEnd task) := by
  unfold startRead
  dsimp only
  repeat' split
  all_goals trivial

theorem finish_fits {q : Queue} {stack : List Frame} {ctx : Ctx} {k : ScalarKind} {data : Bytes} : OutcomeFits (finishScalar q stack ctx k data) := by
  unfold finishScalar
  repeat' split
  all_goals first | trivial | exact scalarEvent_fits (scalar_fits k data) (by assumption)

theorem containerStart_fits {q : Queue} {stack : List Frame} {ctx : Ctx} {ty : IonType} {n : Nat} : OutcomeFits (containerStart q stack ctx ty n) := by
  unfold containerStart
  dsimp only
  split
  · trivial
  · exact fits_none { eventType := .containerStart, ionType := some ty, fieldName := ctx.fieldName.map .tok, annotations := (ctx.annotations.getD []).map .tok, depth := some ctx.depth } rfl

theorem lengthed_fits {q : Queue} {stack : List Frame} {ctx : Ctx} {h : LenHandler} {n : Nat} : OutcomeFits (lengthed q stack ctx h n) := by
  cases h with
  | nop =>
    simp only [lengthed]
    repeat' split
    all_goals first | trivial | exact startRead_fits
  | scalar k =>
    simp only [lengthed]
    split
    · exact finish_fits
    · exact startRead_fits
  | container ty => exact containerStart_fits
  | annotation =>
    simp only [lengthed]
    split <;> trivial

theorem dispatch_fits {octet : UInt8} {ty : IonType} {v : Option PyVal} (h : dispatch octet = .static ty v) : FitsWell TruncatedInUtc (some ty) v := by
  unfold dispatch at h
  dsimp only at h
  split at h
  · cases h
  · split at h
    · split at h
      · cases h; cases valueType _ <;> trivial
      · cases h
    · split at h
      · rename_i ty' v' hs
        cases h
        unfold staticScalar at hs
        split at hs <;> cases hs <;> trivial
      · repeat' split at h
        all_goals cases h

theorem handle_fits {q : Queue} {stack : List Frame} {ctx : Ctx} {octet : UInt8} : OutcomeFits (handle q stack ctx (dispatch octet)) := by
  cases hd : dispatch octet with
  | static ty v =>
    simp only [handle]
    split
    · trivial
    · exact scalarEvent_fits (dispatch_fits hd) (by assumption)
  | ivm =>
    simp only [handle]
    split
    · trivial
    · exact startRead_fits
  | fixed h n => exact lengthed_fits
  | _ => trivial

theorem useVar_fits {q : Queue} {stack : List Frame} {ctx : Ctx} {value : Nat} {use : VarUse} : OutcomeFits (useVar q stack ctx value use) := by
  cases use with
  | field =>
    simp only [useVar]
    split
    · trivial
    · exact startRead_fits
  | length h => exact lengthed_fits
  | ordered =>
    simp only [useVar]
    split
    · trivial
    · exact containerStart_fits
  | annLength =>
    simp only [useVar]
    split
    · trivial
    · exact startRead_fits

theorem resume_fits {q : Queue} {stack : List Frame} {task : Task} : OutcomeFits (resume q stack task) := by
  cases task with
  | typeOctet ctx b =>
    simp only [resume]
    repeat' split
    all_goals first | trivial | exact handle_fits
  | varByte ctx value use =>
    simp only [resume]
    repeat' split
    all_goals first | trivial | exact useVar_fits
  | ivmTail =>
    simp only [resume]
    repeat' split
    all_goals trivial
  | scalarBody ctx k n =>
    simp only [resume]
    repeat' split
    all_goals first | trivial | exact finish_fits
  | annData ctx n =>
    simp only [resume]
    repeat' split
    all_goals first | trivial | exact startRead_fits
  | loop => trivial

theorem micro_fits (m : Machine) : OutcomeFits (micro m) := by
  unfold micro
  split
  · unfold containerLoop
    repeat' split
    · trivial
    · rename_i f _ _ _
      exact fits_none { eventType := .containerEnd, ionType := f.ionType, depth := some ((f.depth : Int) - 1) } rfl
    · trivial
    · exact startRead_fits
  · split
    · exact startRead_fits
    · trivial
  · split <;> trivial
  · exact resume_fits

theorem runFuel_fits (n : Nat) : ∀ m : Machine, OutcomeFits (runFuel n m) := by
  induction n with
  | zero => intro m; trivial
  | succ n ih =>
    intro m
    simp only [runFuel]
    have := micro_fits m
    split
    · exact ih _
    · exact this

theorem deliver_fits {o : Outcome} (h : OutcomeFits o) {e : IonEvent} (he : (deliver o).1 = .ok e) : ValueFits TruncatedInUtc e := by
  cases o with
  | emit e' q st => cases he; exact h
  | block b m =>
    simp only [deliver] at he
    split at he
    · cases he
      split <;> exact fits_none _ rfl
    · cases he
  | error err => cases he
  | cont m => cases he

/-- One call, in any state. -/
theorem send_fits {st : Status} {cmd : Cmd} {e : IonEvent} (he : (send st cmd).1 = .ok e) : ValueFits TruncatedInUtc e := by
  unfold send at he
  have hr : ∀ m : Machine, OutcomeFits (run m) := fun m => runFuel_fits _ m
  repeat' split at he
  all_goals first
    | (cases he; done)
    | exact deliver_fits (hr _) he
    | (refine deliver_fits ?_ he; exact startRead_fits)

end Ion.EventValues.Binary

namespace Ion.EventValues.Text
open Ion Ion.TextReader Ion.EventEquality Ion.TextReader.Calm

variable {t : Option IonType} {x : Ctx} {v : Env} {F : FloatText} {c : Nat}

/-- The type of a number. -/
def numType : NumKind → IonType
  | .decimal | .fractional => .decimal
  | .float => .float
  | _ => .int

/-- The handler fits: `t` is the type of the container, `ty` that of the context. -/
def HT (t ty : Option IonType) : H → Prop
  | .negStart | .zeroStart | .number => ty = some .int
  | .slashEnd e | .longSymbol e => ValueFits Truncated e
  | .numeric k _ => ty = some (numType k)
  | .tsZero | .ts _ => ty = some .timestamp
  | .comment (some h) | .commentBody (some h) _ _ => HT t ty h
  | .sexpSlash none p => ∀ e, p = some e → ValueFits Truncated e
  | .sexpSlash (some h) p => HT t ty h ∧ ∀ e, p = some e → ValueFits Truncated e
  | .long f cl _ _ _ => (f = true → t = some .struct) ∧ (f = false → cl = false → ty = some .string)
  | .shortString => ty = some .string
  | .quote1 f | .quote2 f => f = true → t = some .struct
  | _ => True

/-- What a handler returns fits. -/
def ResT (t : Option IonType) (x : Ctx) : Res → Prop
  | .imm h => HT t x.ionType h
  | .self => True
  | .event e => ValueFits Truncated e
  | .composite e none _ => ValueFits Truncated e
  | .composite e (some h) nx => ValueFits Truncated e ∧ HT t nx.ionType h

/-- The outcome of a handler fits. -/
def OutT (t : Option IonType) : Except PyErr Out → Prop
  | .error _ => True
  | .ok o => ResT t o.ctx o.res

/-- A created handler fits. -/
def SetsT (t : Option IonType) : Except PyErr (Ctx × H) → Prop
  | .error _ => True
  | .ok r => HT t r.1.ionType r.2

theorem out_event {e : IonEvent} (h : ValueFits Truncated e) : OutT t (.ok { ctx := x, res := .event e }) := h

theorem andGo_t {r : Except PyErr (Ctx × H)} {u : Option Nat} (h : SetsT t r) : OutT t (andGo r u) := by
  unfold andGo
  split
  · trivial
  · exact h

theorem setUnicode_t {b : Bool} {y : Ctx} (h : x.setUnicode b = .ok y) : y.ionType = x.ionType := by
  unfold Ctx.setUnicode at h
  repeat' split at h
  all_goals first | (cases h; done) | (cases h; rfl)

theorem event_fits {ty : Option IonType} {w : Except PyErr (Option PyVal)} {n : Nat} (h : match w with | .error _ => True | .ok v => FitsWell Truncated ty v) : ValueFits Truncated (x.event n ty w) := by
  unfold ValueFits Ctx.event
  cases w with
  | error e => trivial
  | ok v => exact ⟨h, fun _ => rfl⟩

theorem symbol_fits {n : Nat} {k : Tok} {e : IonEvent} (h : x.symbolEvent n k = .ok e) : ValueFits Truncated e := by
  unfold Ctx.symbolEvent at h
  repeat' split at h
  all_goals first | (cases h; done) | (cases h; exact fits_none _ (by rfl)) | (cases h; exact event_fits (by trivial))

theorem some_fits {α : Type} {f : α → PyVal} {r : Except PyErr α} {ty : Option IonType} (h : ∀ a, FitsWell Truncated ty (some (f a))) : match someVal f r with | .error _ => True | .ok v => FitsWell Truncated ty v := by
  cases r with
  | error e => trivial
  | ok a => exact h a

theorem endNumber_t {ch : Ch} {e : IonEvent} (h : ValueFits Truncated e) : OutT t (endNumber x ch e) := by
  unfold endNumber
  split <;> exact h

/-! ## Creation of handlers -/

theorem operator_t : SetsT t (mkOperator c x) := by
  unfold mkOperator
  split <;> trivial

theorem unquoted_t {f : Bool} : SetsT t (mkUnquoted v c x f) := by
  unfold mkUnquoted
  repeat' split
  all_goals trivial

theorem numeric_t {k : NumKind} (h : k = .whole → x.ionType = some .int) : SetsT t (mkNumeric k c x) := by
  cases k with
  | decimal => simp [mkNumeric, SetsT, HT, numType]
  | float => simp [mkNumeric, SetsT, HT, numType]
  | fractional => simp [mkNumeric, SetsT, HT, numType]
  | whole =>
    simp only [mkNumeric, SetsT, HT, numType]
    split <;> exact h rfl
  | binary =>
    simp only [mkNumeric]
    split
    · rename_i hh; exact hh.2
    · trivial
  | hex =>
    simp only [mkNumeric]
    split
    · rename_i hh; exact hh.2
    · trivial

theorem timestamp_t : SetsT t (mkTimestamp c x) := by
  unfold mkTimestamp
  dsimp only
  split
  · trivial
  · simp [SetsT, HT]

theorem zero_t : SetsT t (mkZeroStart c x) := by
  unfold mkZeroStart
  split
  · simp [SetsT, HT]
  · trivial

theorem tsZero_t : SetsT t (mkTsZero c x) := by
  unfold mkTsZero
  dsimp only
  repeat' split
  all_goals first | trivial | simp [SetsT, HT]

theorem whole_t {dot : Bool} : SetsT t (wholeTable dot c x) := by
  unfold wholeTable
  repeat' split
  all_goals first | trivial | exact numeric_t (by rintro ⟨⟩)

theorem quotedSymbol_t {ch : Ch} {f : Bool} : SetsT t (mkQuotedSymbol ch x f) := by
  unfold mkQuotedSymbol
  repeat' split
  all_goals trivial

theorem short_t {f : Bool} : SetsT t (mkShort x f) := by
  unfold mkShort
  dsimp only
  repeat' split
  all_goals first | trivial | simp [SetsT, HT]

theorem long_t {f : Bool} (h : f = true → t = some .struct) : SetsT t (mkLong x f) := by
  unfold mkLong
  dsimp only
  split
  · trivial
  · have key : ∀ y : Ctx, (f = false → x.ionType ≠ some .clob → y.ionType = some .string) → SetsT t (if y.value ≠ [] then .error .assertionError
      else match y.setUnicode true with
        | .error err => .error err
        | .ok z => .ok (if f = true then z.setPending (.text []) else z, .long f (decide (x.ionType = some IonType.clob)) 0 true true)) := by
      intro y hy
      split
      · trivial
      · split
        · trivial
        · rename_i hs
          have := setUnicode_t hs
          refine ⟨h, fun hf hc => ?_⟩
          subst hf
          simp only [Bool.false_eq_true, if_false]
          rw [this]
          exact hy rfl (of_decide_eq_false hc)
    split
    · exact key _ (fun _ _ => setType_ionType _)
    · rename_i hn
      refine key _ (fun h1 h2 => absurd ?_ hn)
      simp [h1, h2]

theorem clobEnd_t : SetsT t (mkClobEnd c x) := by
  unfold mkClobEnd
  repeat' split
  all_goals trivial

theorem blobEnd_t : SetsT t (mkBlobEnd c x) := by
  unfold mkBlobEnd
  repeat' split
  all_goals trivial

theorem keyword_t {f : Bool} : SetsT t (mkKeyword v c x f) := by
  unfold mkKeyword
  repeat' split
  all_goals trivial

theorem dollar_t {f : Bool} : SetsT t (mkDollar v c x f) := by
  unfold mkDollar
  repeat' split
  all_goals trivial

theorem field_t (h : t = some .struct) : SetsT t (fieldTable v c x) := by
  unfold fieldTable
  repeat' split
  all_goals first | trivial | exact fun _ => h | exact short_t | exact dollar_t | exact keyword_t

theorem value_t : SetsT t (valueTable v c x) := by
  unfold valueTable
  repeat' split
  all_goals first | trivial | exact zero_t | exact short_t | exact dollar_t | exact keyword_t | (simp [SetsT, HT]; done) | (rintro ⟨⟩)

/-! ## Handlers -/

theorem parse_fits (k : NumKind) (l : List Nat) : match k.parse F l with | .error _ => True | .ok v => FitsWell Truncated (some (numType k)) v := by
  cases k <;> exact some_fits (fun _ => trivial)

theorem onNumeric_t {k : NumKind} {prev : Nat} {ch : Ch} (h : x.ionType = some (numType k)) : OutT t (onNumeric F v k prev x ch) := by
  unfold onNumeric
  repeat' split
  · trivial
  · refine endNumber_t (event_fits ?_)
    rw [h]
    exact parse_fits k _
  · trivial
  · exact h
  · exact h
  · unfold NumKind.transition
    repeat' split
    all_goals first | trivial | exact h | exact andGo_t whole_t

theorem parseOffset_ok {k : TsTokens} {tz : Option Int} (h : parseOffset k = .ok tz) : Scalars.OffsetOk tz := by
  unfold parseOffset at h
  dsimp only at h
  repeat' split at h
  all_goals first | (cases h; done) | (cases h; exact noZone_ok) | skip
  all_goals
    rename_i hd
    cases h
    rw [← Int.add_mul] at hd
    exact zone_ok hd

theorem intOr_none {l : Option (List Nat)} {n m : Nat} (h : intOr l n = .ok m) (hl : l.isSome = false) : m = n := by
  cases l with
  | none => unfold intOr at h; cases h; rfl
  | some l => cases hl

theorem ts_fits (year : List Nat) (k : TsTokens) : match parseTimestamp year k with | .error _ => True | .ok v => FitsWell Truncated (some .timestamp) v := by
  cases h : parseTimestamp year k with
  | error e => trivial
  | ok v =>
    unfold parseTimestamp at h
    simp only [bind, Except.bind, pure, Except.pure, throw, throwThe, MonadExceptOf.throw] at h
    split at h
    · cases h
    rename_i tz htz
    have hz := parseOffset_ok htz
    split at h
    · cases h
    rename_i y hy
    split at h
    · cases h
    rename_i mo hmo
    split at h
    · cases h
    rename_i d hd
    split at h
    · cases h
    rename_i htog
    split at h
    · cases h
    rename_i ho hho
    split at h
    · cases h
    rename_i mi hmi
    split at h
    · cases h
    rename_i s hs
    split at h
    · cases h
    rename_i f hf
    split at h
    · cases h
    rename_i hn
    cases h
    simp only [not_not] at htog
    have hg : Given { year := y, month := mo, day := d, hour := ho, minute := mi, second := s, micro := none, tz := tz, precision := some k.precision, fracPrecision := none, frac := f } := by
      refine ⟨rfl, rfl, ?_, ?_, ?_, ?_⟩
      · intro hp
        have e : k.second.isSome = false := by
          cases e : k.second.isSome with
          | false => rfl
          | true => exact absurd (by simp [TsTokens.precision, e]) hp
        refine ⟨intOr_none hs e, .inl ?_⟩
        unfold parseFraction at hf
        cases e2 : k.second with
        | none => rw [e2] at hf; cases hf; rfl
        | some _ => rw [e2] at e; cases e
      · rintro p ⟨⟩ hp
        have e : k.hour.isSome = false := by
          cases e : k.hour.isSome with
          | false => rfl
          | true => cases e2 : k.second.isSome <;> simp [TsTokens.precision, e, e2, Precision.includesMinute, Precision.toNat] at hp
        exact ⟨intOr_none hho e, intOr_none hmi (by rw [← htog]; exact e)⟩
      · rintro p ⟨⟩ hp
        have e : k.day.isSome = false := by
          cases e : k.day.isSome with
          | false => rfl
          | true => cases e2 : k.second.isSome <;> cases e3 : k.hour.isSome <;> simp [TsTokens.precision, e, e2, e3, Precision.includesDay, Precision.toNat] at hp
        exact intOr_none hd e
      · rintro p ⟨⟩ hp
        have e : k.month.isSome = false := by
          cases e : k.month.isSome with
          | false => rfl
          | true => cases e2 : k.second.isSome <;> cases e3 : k.hour.isSome <;> cases e4 : k.day.isSome <;> simp [TsTokens.precision, e, e2, e3, e4, Precision.includesMonth, Precision.toNat] at hp
        exact intOr_none hmo e
    exact ⟨timestamp_fits hn (by simp) hz ⟨hg.micro, hg.digits, hg.second⟩, given_truncated hg hn⟩

theorem onTs_t {s : TsState} {ch : Ch} (h : x.ionType = some .timestamp) : OutT t (onTs v s x ch) := by
  unfold onTs
  dsimp only
  repeat' split
  all_goals first
    | trivial
    | exact h
    | (refine endNumber_t (event_fits ?_); rw [h]; exact ts_fits _ _)

theorem onComment_t {ret : Option H} {block : Bool} {prev : Option Nat} {ch : Ch} (h : HT t x.ionType (.commentBody ret block prev)) : OutT t (onComment ret block prev x ch) := by
  unfold onComment
  cases ret with
  | none =>
    dsimp only
    repeat' split
    all_goals trivial
  | some r =>
    dsimp only
    repeat' split
    all_goals exact h

theorem thenOperator_t {e : IonEvent} {u : Nat} (h : ValueFits Truncated e) : OutT t (thenOperator e c x u) := by
  have := operator_t (t := t) (c := c) (x := {})
  unfold thenOperator
  split
  · trivial
  · rename_i hh
    rw [hh] at this
    exact ⟨h, this⟩

theorem onSexpSlash_t {ret : Option H} {p : Option IonEvent} {ch : Ch} (h : HT t x.ionType (.sexpSlash ret p)) : OutT t (onSexpSlash ret p x ch) := by
  have hp : ∀ e, p = some e → ValueFits Truncated e := by
    cases ret with
    | none => exact h
    | some r => exact h.2
  unfold onSexpSlash
  split
  · trivial
  · split
    · cases ret with
      | none => trivial
      | some r => exact h.1
    · split
      · exact thenOperator_t (hp _ rfl)
      · exact andGo_t operator_t

theorem string_fits {n : Nat} {l : List Nat} (h : x.ionType = some .string) : ValueFits Truncated (x.event n x.ionType (.ok (some (.str l)))) := by
  refine event_fits ?_
  rw [h]
  trivial

theorem extend_t {f : Bool} {l : List Nat} : (x.extend f l).ionType = x.ionType := by
  unfold Ctx.extend
  split <;> rfl

theorem longQuotes_t {f cl : Bool} {q : Nat} {ch : Ch} (h : f = false → cl = false → x.ionType = some .string) : OutT t (longQuotes v f cl q x ch) := by
  unfold longQuotes
  split
  · trivial
  · rename_i hf
    simp only [Bool.or_eq_true, not_or, Bool.not_eq_true] at hf
    have := h hf.1 hf.2
    repeat' split
    all_goals first | trivial | exact string_fits this

theorem longAfter_t {f cl : Bool} {ch : Ch} (hf : f = true → v.ty = some .struct) (h : f = false → cl = false → x.ionType = some .string) : OutT v.ty (longAfter v f cl x ch) := by
  unfold longAfter
  dsimp only
  split
  · exact andGo_t clobEnd_t
  · rename_i hc
    simp only [Bool.not_eq_true] at hc
    subst hc
    have hs : v.inSexp = true → f = false := by
      intro hh
      cases f with
      | false => rfl
      | true => rw [Env.inSexp, hf rfl] at hh; cases hh
    split
    · split
      · rename_i hh
        exact ⟨⟨hf, h⟩, by rintro _ ⟨⟩; exact string_fits (h (hs hh) rfl)⟩
      · exact ⟨hf, h⟩
    · split
      · split <;> trivial
      · rename_i hh
        exact string_fits (h (by simpa using hh) rfl)

theorem onLong_t {f cl : Bool} {q : Nat} {a b : Bool} {ch : Ch} (h : HT v.ty x.ionType (.long f cl q a b)) : OutT v.ty (onLong v f cl q a b x ch) := by
  obtain ⟨hf, h⟩ := h
  unfold onLong
  have : ∀ y : Ctx, y.ionType = x.ionType → OutT v.ty
      (if ch.code = 39 ∧ ¬ch.esc = true then
        if q = 2 then .ok { ctx := y.setQuoted (!a), res := .imm (.long f cl 0 (!a) false) }
        else .ok { ctx := y, res := .imm (.long f cl (q + 1) a false) }
      else if a = true then
        if badQuoted true cl ch = true then .error .ionException
        else .ok { ctx := y.extend f (List.replicate q 39 ++ if isNewline ch.code = true ∧ ch.nl = true then [] else [ch.code]), res := .imm (.long f cl 0 a false) }
      else if q > 0 then longQuotes v f cl q y ch
      else if isWs ch.code = true then .ok { ctx := y, res := .imm (.long f cl 0 a false) }
      else longAfter v f cl y ch) := by
    intro y hy
    rw [← hy] at h
    repeat' split
    all_goals first
      | trivial
      | exact ⟨hf, h⟩
      | (refine ⟨hf, ?_⟩; rw [extend_t]; exact h)
      | exact longQuotes_t h
      | exact longAfter_t hf h
  split
  · exact this x rfl
  · exact this _ rfl

theorem onTypedNull_t {n : NullNode} {ch : Ch} : OutT t (onTypedNull v n x ch) := by
  unfold onTypedNull
  repeat' split
  all_goals first | trivial | exact out_event (fits_none _ rfl)

theorem kw_fits {k : Kw} : ValueFits Truncated (k.event v x) := by
  cases k
  · exact fits_none _ (by rfl)
  all_goals exact event_fits (by trivial)

theorem check_t {k : Kw} {f : Bool} {i c : Nat} {r : Bool × Option Res} (h : checkKeyword v k f i x c = .ok r) : ∀ res, r.2 = some res → ResT t x res := by
  unfold checkKeyword at h
  repeat' split at h
  all_goals first
    | (cases h; done)
    | (cases h; rintro _ ⟨⟩; done)
    | (cases h; rintro _ ⟨⟩; first | trivial | exact kw_fits)

theorem checks_t {s : KwState} {c : Nat} {r : KwState × Option Res} (h : keywordChecks v s x c = .ok r) : ∀ res, r.2 = some res → ResT t x res := by
  unfold keywordChecks at h
  simp only [bind, Except.bind, pure, Except.pure] at h
  split at h
  · cases h
  · rename_i s' hs'
    have hs : ∀ res, s'.2 = some res → ResT t x res := by
      split at hs'
      · split at hs'
        · cases hs'
        · rename_i hc
          cases hs'
          exact check_t hc
      · cases hs'
        rintro _ ⟨⟩
    repeat' split at h
    all_goals first
      | (cases h; done)
      | (cases h; exact hs)
      | (rename_i hc; cases h; exact check_t hc)

theorem notKeyword_t {f : Bool} : OutT t (notKeyword v f x c) := by
  unfold notKeyword
  repeat' split
  all_goals first | trivial | exact andGo_t unquoted_t | exact symbol_fits (by assumption)

theorem onKeyword_t {s : KwState} {ch : Ch} : OutT t (onKeyword v s x ch) := by
  unfold onKeyword
  split
  · trivial
  · rename_i hc
    split
    · split
      · exact checks_t hc _ rfl
      · trivial
    · exact notKeyword_t

theorem notInf_t {i : Nat} : OutT t (notInf v i x c) := by
  unfold notInf
  split
  · trivial
  · split
    · trivial
    · split
      · split
        · exact andGo_t operator_t
        · split
          · trivial
          · exact symbol_fits (by assumption)
      · split
        · trivial
        · rename_i he
          have := unquoted_t (t := t) (v := v) (c := c) (x := { value := infSuffix.take i }) (f := false)
          split
          · trivial
          · rename_i hh
            rw [hh] at this
            exact ⟨symbol_fits he, this⟩

theorem onInf_t {neg : Bool} {i : Nat} {ch : Ch} : OutT t (onInf v neg i x ch) := by
  unfold onInf
  dsimp only
  repeat' split
  all_goals first | trivial | exact notInf_t | exact out_event (event_fits trivial)

theorem symbolEnd_t {f : Bool} {k : Tok} : OutT t (symbolEnd v c x f k) := by
  unfold symbolEnd
  repeat' split
  all_goals first | trivial | exact symbol_fits (by assumption)

theorem onUnquoted_t {f : Bool} {prev : Nat} {ch : Ch} : OutT t (onUnquoted v f prev x ch) := by
  unfold onUnquoted
  repeat' split
  all_goals first | trivial | exact symbolEnd_t

theorem onDollar_t {s : DollarState} {ch : Ch} : OutT t (onDollar v s x ch) := by
  unfold onDollar dollarEnd
  dsimp only
  repeat' split
  all_goals first | trivial | exact symbolEnd_t | exact andGo_t unquoted_t

theorem onShort_t {f cl : Bool} {h : H} {ch : Ch} (hs : f = false → cl = false → x.ionType = some .string) (hh : HT t x.ionType h) : OutT t (onShort v f cl h x ch) := by
  unfold onShort
  split
  · split
    · trivial
    · rename_i h1
      split
      · exact andGo_t clobEnd_t
      · rename_i h2
        exact string_fits (hs (by simpa using h1) (by simpa using h2))
  · split
    · trivial
    · show HT t (x.extend f _).ionType h
      rw [extend_t]
      exact hh

theorem onQuotedSymbol_t {f : Bool} {ch : Ch} : OutT t (onQuotedSymbol v f x ch) := by
  unfold onQuotedSymbol
  repeat' split
  all_goals first | trivial | exact symbolEnd_t

theorem lob_fits {ty : IonType} (h : ty = .clob ∨ ty = .blob) : match parseLob ty x with | .error _ => True | .ok v => FitsWell Truncated (some ty) v := by
  cases hp : parseLob ty x with
  | error e => trivial
  | ok v =>
    unfold parseLob at hp
    repeat' split at hp
    all_goals first | (cases hp; done) | skip
    all_goals
      cases hp
      rcases h with rfl | rfl <;> trivial

theorem onLobStart_t {q : Nat} {ch : Ch} : OutT t (onLobStart q x ch) := by
  unfold onLobStart
  repeat' split
  all_goals first | trivial | exact andGo_t short_t | exact andGo_t (long_t (by rintro ⟨⟩)) | exact andGo_t blobEnd_t

theorem onBlobEnd_t {a b d : Nat} {ch : Ch} : OutT t (onBlobEnd v a b d x ch) := by
  unfold onBlobEnd
  repeat' split
  all_goals first | trivial | exact event_fits (lob_fits (.inr rfl))

theorem onClobEnd_t {a : Nat} {ch : Ch} : OutT t (onClobEnd v a x ch) := by
  unfold onClobEnd
  repeat' split
  all_goals first | trivial | exact event_fits (lob_fits (.inl rfl))

/-- A character that is sent to a handler. -/
theorem handle_t {h : H} {ch : Ch} (hh : HT v.ty x.ionType h) : OutT v.ty (TextReader.handle F v x h ch) := by
  have hi : x.ionType = some .int → ValueFits Truncated (x.event v.depth x.ionType (someVal .int (TextReader.parseInt x.value))) := by
    intro h
    refine event_fits ?_
    rw [h]
    exact some_fits (fun _ => trivial)
  cases h with
  | negStart =>
    simp only [TextReader.handle]
    repeat' split
    all_goals first | trivial | exact andGo_t zero_t | exact andGo_t (numeric_t fun _ => hh)
  | zeroStart =>
    simp only [TextReader.handle]
    repeat' split
    all_goals first | trivial | exact endNumber_t (hi hh) | exact andGo_t (numeric_t (by rintro ⟨⟩)) | exact andGo_t tsZero_t | exact andGo_t whole_t
  | number =>
    simp only [TextReader.handle]
    repeat' split
    all_goals first | trivial | exact endNumber_t (hi hh) | exact hh | exact andGo_t timestamp_t | exact andGo_t (numeric_t fun _ => hh) | exact andGo_t whole_t
  | slashEnd e =>
    simp only [TextReader.handle]
    split
    · trivial
    · exact ⟨hh, trivial⟩
  | numeric k prev => exact onNumeric_t hh
  | tsZero =>
    simp only [TextReader.handle]
    repeat' split
    all_goals first | trivial | exact andGo_t timestamp_t | exact hh
  | ts s => exact onTs_t hh
  | comment ret =>
    simp only [TextReader.handle]
    split
    · trivial
    · rename_i y b hc
      have : y.ionType = x.ionType := by
        unfold commentStart at hc
        repeat' split at hc
        all_goals first | (cases hc; done) | (cases hc; rfl)
      cases ret with
      | none => trivial
      | some r =>
        show HT v.ty y.ionType r
        rw [this]
        exact hh
  | commentBody ret b p => exact onComment_t hh
  | sexpSlash ret p => exact onSexpSlash_t hh
  | long f cl q a b => exact onLong_t hh
  | longSymbol e =>
    have := quotedSymbol_t (t := v.ty) (ch := ch) (x := {}) (f := false)
    simp only [TextReader.handle]
    split
    · trivial
    · rename_i hq
      rw [hq] at this
      exact ⟨hh, this⟩
  | typedNull n => exact onTypedNull_t
  | operatorStart o =>
    simp only [TextReader.handle]
    split
    · trivial
    · exact andGo_t operator_t
  | operatorAfter o =>
    simp only [TextReader.handle]
    split
    · trivial
    · split
      · trivial
      · split
        · trivial
        · exact thenOperator_t (symbol_fits (by assumption))
  | keyword s => exact onKeyword_t
  | inf neg i => exact onInf_t
  | operator =>
    simp only [TextReader.handle]
    repeat' split
    all_goals first | trivial | exact symbol_fits (by assumption)
  | unquoted f p => exact onUnquoted_t
  | dollar s => exact onDollar_t
  | shortString => exact onShort_t (fun _ _ => hh) hh
  | shortField => exact onShort_t (by rintro ⟨⟩) trivial
  | shortClob => exact onShort_t (by rintro _ ⟨⟩) trivial
  | quotedSymbol f => exact onQuotedSymbol_t
  | quote1 f =>
    simp only [TextReader.handle]
    repeat' split
    all_goals first | trivial | exact hh | exact andGo_t quotedSymbol_t
  | quote2 f =>
    simp only [TextReader.handle]
    repeat' split
    all_goals first | trivial | exact andGo_t (long_t hh)
  | structOrLob =>
    simp only [TextReader.handle]
    repeat' split
    all_goals trivial
  | lobStart q => exact onLobStart_t
  | blobEnd a b d => exact onBlobEnd_t
  | clobEnd a => exact onClobEnd_t
  | containerStart ty => exact out_event (fits_none _ rfl)

/-! ## The container generator -/

/-- Field names are read in structs only. -/
def FieldsT (s : St) : Prop := (s.isField = true → s.ty = some .struct) ∧ ∀ f ∈ s.outer, f.isField = true → f.ty = some .struct

/-- The handler that the generator is at fits. -/
def PcT (ty : Option IonType) (x : Ctx) : Pc → Prop
  | .token h _ => HT ty x.ionType h
  | .afterEvent _ _ (some h) => HT ty x.ionType h
  | _ => True

/-- A state fits. -/
def StT (s : St) : Prop := FieldsT s ∧ PcT s.ty (s.child.getD {}) s.pc

/-- Every event of an action fits, and every state it leads to. -/
def ActT : Act → Prop
  | .err _ => True
  | .emit e s => ValueFits Truncated e ∧ StT s
  | .read _ _ k => ∀ c, ActT (k c)
  | .unread _ a => ActT a
  | .wait a => ActT a
  | .go s => StT s

variable {s : St}

theorem onSelf_t (h : FieldsT s) {c : Nat} : ActT (onSelf s x c) := by
  unfold onSelf
  dsimp only
  repeat' split
  all_goals first | exact ⟨h, trivial⟩ | exact fun _ => ⟨h, trivial⟩

theorem onRes_t (h : FieldsT s) {c : Option Nat} {r : Res} (hr : ResT s.ty x r) : ActT (onRes s x c r) := by
  cases r with
  | imm h' => exact ⟨h, hr⟩
  | self => exact onSelf_t h
  | event e =>
    simp only [onRes]
    repeat' split
    · trivial
    · exact ⟨hr, h, trivial⟩
    · exact ⟨hr, h, trivial⟩
  | composite e nxt nx =>
    cases nxt with
    | none => exact ⟨hr, h, trivial⟩
    | some h' => exact ⟨hr.1, h, hr.2⟩

theorem onChar_t (h : FieldsT s) {k : H} {c : Option Ch} (hk : HT s.ty x.ionType k) : ActT (onChar F s x k c) := by
  have := handle_t (F := F) (v := s.env) (ch := c.getD { code := EOF }) (show HT s.env.ty x.ionType k from hk)
  unfold onChar
  split
  · trivial
  · rename_i o ho
    rw [ho] at this
    have hr := onRes_t h (c := c.map (·.code)) this
    split
    · exact hr
    · exact hr

theorem readHex_t (n : Nat) : ∀ {acc : Nat} {k : Nat → Act}, (∀ a, ActT (k a)) → ActT (readHex n acc k) := by
  induction n with
  | zero => intro acc k hk; exact hk _
  | succ n ih =>
    intro acc k hk c
    dsimp only
    split
    · exact ih hk
    · trivial

theorem newline_t {c : Nat} {b : Bool} {k : Ch → Act} (hk : ∀ ch, ActT (k ch)) : ActT (newline c b k) := by
  unfold newline
  split
  · intro c'
    dsimp only
    repeat' split
    all_goals first | trivial | exact hk _
  · exact hk _

theorem decoded_t {cp : Nat} {long : Bool} {k : Ch → Act} (h : FieldsT s) (hk : ∀ ch, ActT (k ch)) : ActT (decoded cp long s k) := by
  unfold decoded
  repeat' split
  · trivial
  · trivial
  · intro c
    dsimp only
    split
    · intro c
      dsimp only
      split
      · split
        · exact ⟨h, trivial⟩
        · refine readHex_t 4 fun a => ?_
          split
          · exact hk _
          · trivial
      · trivial
    · split <;> trivial
  · exact hk _

theorem codePoint_t {cl : Bool} {k : Ch → Act} (h : FieldsT s) (hk : ∀ ch, ActT (k ch)) : ActT (codePoint cl s k) := by
  intro c
  dsimp only
  split
  · trivial
  · split
    · intro low
      dsimp only
      split
      · exact hk _
      · trivial
    · split
      · intro c
        dsimp only
        split
        · exact readHex_t 4 fun _ => decoded_t h hk
        · split
          · exact readHex_t 2 fun _ => decoded_t h hk
          · split
            · exact readHex_t 8 fun _ => decoded_t h hk
            · split
              · exact hk _
              · split
                · exact newline_t hk
                · trivial
      · exact newline_t hk

theorem onToken_t (h : FieldsT s) {k : H} {q : Bool} (hk : HT s.ty (s.child.getD {}).ionType k) : ActT (onToken F s k q) := by
  unfold onToken
  dsimp only
  split
  · exact onChar_t h hk
  · exact onChar_t h hk
  · split
    · exact codePoint_t h fun ch => onChar_t h hk
    · exact fun c => onChar_t h hk

theorem onStart_t (h : FieldsT s) {c : Nat} : ActT (onStart s c) := by
  unfold onStart
  dsimp only
  split
  · split
    · split
      · exact ⟨h, by rintro e ⟨⟩⟩
      · split
        · trivial
        · split
          · trivial
          · rename_i he
            exact ⟨h, by rintro _ ⟨⟩; exact symbol_fits he⟩
    · exact ⟨h, trivial⟩
  · split
    · trivial
    · split
      · split
        · split
          · split
            · trivial
            · exact ⟨⟨by rintro ⟨⟩, h.2⟩, trivial⟩
          · intro c
            dsimp only
            split
            · split
              · trivial
              · exact ⟨h, trivial⟩
            · trivial
        · split
          · trivial
          · split
            · trivial
            · rename_i he
              exact ⟨symbol_fits he, h, trivial⟩
      · have table : ∀ w y, SetsT s.ty (if s.isField = true then fieldTable w c y else valueTable w c y) := by
          intro w y
          split
          · rename_i hf; exact field_t (h.1 hf)
          · exact value_t
        split
        · trivial
        · rename_i ht
          have := table ({ s with canFlush := false } : St).env (if decorated s.child = true then s.child.getD {} else {})
          rw [ht] at this
          exact ⟨h, this⟩

theorem onClose_t (h : FieldsT s) {c : Nat} : ActT (onClose s c) := by
  unfold onClose
  split
  · split
    · trivial
    · split
      · trivial
      · rename_i f fs ho
        refine ⟨fits_none _ rfl, ⟨?_, ?_⟩, trivial⟩
        · exact h.2 f (by rw [ho]; exact List.mem_cons_self)
        · intro g hg
          exact h.2 g (by rw [ho]; exact List.mem_cons_of_mem _ hg)
  · split
    · split
      · trivial
      · exact fun c => ⟨⟨fun hh => of_decide_eq_true hh, h.2⟩, trivial⟩
    · exact fun c => ⟨h, trivial⟩

theorem onHead_t (h : FieldsT s) {c : Option Nat} : ActT (onHead s c) := by
  unfold onHead
  split
  · exact fun c => ⟨h, trivial⟩
  · split
    · split
      · split
        · trivial
        · split
          · trivial
          · split
            · trivial
            · rename_i he
              exact ⟨symbol_fits he, h, trivial⟩
      · exact onClose_t h
    · split
      · exact fun c => ⟨h, trivial⟩
      · exact onStart_t h

/-- What the generator does from a state on. -/
theorem next_t (h : StT s) : ActT (next F s) := by
  obtain ⟨h1, h2⟩ := h
  unfold next
  cases hp : s.pc with
  | head c => exact onHead_t h1
  | token k q => rw [hp] at h2; exact onToken_t h1 h2
  | afterEvent c sd nxt =>
    rw [hp] at h2
    dsimp only
    cases nxt with
    | none =>
      split
      · exact fun c => ⟨h1, trivial⟩
      · exact ⟨h1, trivial⟩
    | some k =>
      split
      · exact fun c => ⟨h1, h2⟩
      · exact ⟨h1, h2⟩
  | enter ty c =>
    refine ⟨⟨fun hh => ?_, ?_⟩, trivial⟩
    · have : ty = .struct := of_decide_eq_true hh
      subst this
      rfl
    · intro f hf
      rcases List.mem_cons.mp hf with rfl | hf
      · exact h1.1
      · exact h1.2 f hf
  | resumed => exact fun c => ⟨h1, trivial⟩
  | hexLoop =>
    intro c
    dsimp only
    split
    · exact ⟨h1, by rw [hp]; trivial⟩
    · trivial

/-! ## The trampolines -/

/-- What reaches the trampoline fits. -/
def OutcomeT : TextReader.Outcome → Prop
  | .event e s _ => ValueFits Truncated e ∧ StT s
  | .block _ _ k _ => ∀ c, ActT (k c)
  | .waiting a _ => ActT a
  | .error _ => True

theorem advance_t {a : Act} {q : BufferQueue Nat} {o : TextReader.Outcome} (ha : ActT a) (h : advance F a q = some o) : OutcomeT o := by
  refine advance.partial_correctness F (fun a q o => ActT a → OutcomeT o) ?_ a q o h ha
  intro adv ih a q o h ha
  cases a with
  | err e => cases h; trivial
  | emit e s => cases h; exact ha
  | read b1 b2 k =>
    dsimp only at h
    repeat' split at h
    · cases h; exact ha
    · cases h; trivial
    · exact ih _ _ _ h (ha _)
  | unread c a =>
    dsimp only at h
    repeat' split at h
    · cases h; trivial
    · exact ih _ _ _ h ha
  | wait a =>
    dsimp only at h
    split at h
    · cases h; exact ha
    · cases h; trivial
  | go s => exact ih _ _ _ h (next_t ha)

/-- The state between two calls fits. -/
def StatusT : TextReader.Status → Prop
  | .fresh | .dead => True
  | .paused _ s _ _ => StT s
  | .blocked _ _ k _ _ _ => ∀ c, ActT (k c)
  | .waiting a _ _ _ => ActT a

/-- An answer fits. -/
def AnswerT (r : Except PyErr IonEvent × TextReader.Status) : Prop := (∀ e, r.1 = .ok e → ValueFits Truncated e) ∧ StatusT r.2

theorem deliver_t {depth : Int} {skipping : Bool} {a : Act} {q : BufferQueue Nat} {r : Except PyErr IonEvent × TextReader.Status} (ha : ActT a)
    (h : TextReader.deliver F depth skipping a q = some r) : AnswerT r := by
  refine deliver.partial_correctness F depth (fun skipping a q r => ActT a → AnswerT r) ?_ skipping a q r h ha
  intro del ih skipping a q r h ha
  cases ho : advance F a q with
  | none => rw [ho] at h; cases h
  | some o =>
    rw [ho] at h
    have h1 := advance_t ha ho
    simp only [Option.bind_eq_bind, Option.bind_some] at h
    cases o with
    | error e => cases h; exact ⟨by rintro e ⟨⟩, trivial⟩
    | block b1 b2 k q =>
      dsimp only at h
      split at h
      · cases h
      · cases h
        refine ⟨?_, h1⟩
        rintro e ⟨⟩
        split <;> exact fits_none _ rfl
    | waiting a q =>
      dsimp only at h
      split at h
      · cases h
      · cases h
        exact ⟨by rintro e ⟨⟩; exact fits_none _ rfl, h1⟩
    | event e s q =>
      dsimp only at h
      repeat' split at h
      all_goals first
        | (cases h; exact ⟨by rintro e ⟨⟩; exact h1.1, h1.2⟩)
        | exact ih _ _ _ _ h h1.2

theorem orDiverge_t {r : Option (Except PyErr IonEvent × TextReader.Status)} (h : ∀ a, r = some a → AnswerT a) : AnswerT (orDiverge r) := by
  cases r with
  | none => exact ⟨by rintro e ⟨⟩, trivial⟩
  | some a => exact h a rfl

/-- One call. -/
theorem send_t {units : Bytes → List Nat} {st : TextReader.Status} {cmd : RawReader.Cmd} (h : StatusT st) : AnswerT (TextReader.send F units st cmd) := by
  have dead : ∀ err, AnswerT (.error err, .dead) := fun err => ⟨by rintro e ⟨⟩, trivial⟩
  have go : ∀ {depth : Int} {skipping : Bool} {a : Act} {q : BufferQueue Nat}, ActT a → AnswerT (orDiverge (TextReader.deliver F depth skipping a q)) :=
    fun ha => orDiverge_t fun a h => deliver_t ha h
  unfold TextReader.send
  repeat' split
  all_goals first
    | exact dead _
    | exact go h
    | exact go (a := .go {}) ⟨⟨by rintro ⟨⟩, by rintro f ⟨⟩⟩, trivial⟩

end Ion.EventValues.Text
