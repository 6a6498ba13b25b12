import Verif.Timestamp
set_option linter.unusedSimpArgs false
/-!
# Lemmas about `datetime` arithmetic and the timestamp constructor
-/
namespace Ion
namespace DateTime

theorem daysInMonth_pos (y m : Nat) : 28 ≤ daysInMonth y m ∧ daysInMonth y m ≤ 31 := by
  unfold daysInMonth
  split
  · split <;> omega
  · split <;> omega

theorem timeOfDay_bounds {d : DateTime} (h : d.Valid) : 0 ≤ d.timeOfDay ∧ d.timeOfDay < dayMicros := by
  obtain ⟨-, -, -, -, -, -, h1, h2, h3, h4⟩ := h
  unfold timeOfDay dayMicros
  omega

/-- A valid date. -/
def ValidDate (x : Nat × Nat × Nat) : Prop :=
  1 ≤ x.1 ∧ x.1 ≤ 9999 ∧ 1 ≤ x.2.1 ∧ x.2.1 ≤ 12 ∧ 1 ≤ x.2.2 ∧ x.2.2 ≤ daysInMonth x.1 x.2.1

theorem Valid.date {d : DateTime} (h : d.Valid) : ValidDate (d.year, d.month, d.day) :=
  ⟨h.1, h.2.1, h.2.2.1, h.2.2.2.1, h.2.2.2.2.1, h.2.2.2.2.2.1⟩

theorem ofDayTime_valid {x : Nat × Nat × Nat} (h : ValidDate x) {t : Int} (h0 : 0 ≤ t) (h1 : t < dayMicros)
    (tz : Option Int) : (ofDayTime x t tz).Valid := by
  obtain ⟨a, b, c, d, e, f⟩ := h
  unfold dayMicros at h1
  refine ⟨a, b, c, d, e, f, ?_, ?_, ?_, ?_⟩ <;> simp only [ofDayTime] <;> omega

theorem timeOfDay_ofDayTime (x : Nat × Nat × Nat) {t : Int} (h0 : 0 ≤ t) (h1 : t < dayMicros) (tz : Option Int) :
    (ofDayTime x t tz).timeOfDay = t := by
  unfold dayMicros at h1
  simp only [ofDayTime, timeOfDay]
  omega

theorem ofDayTime_timeOfDay {d : DateTime} (h : d.Valid) :
    ofDayTime (d.year, d.month, d.day) d.timeOfDay d.tz = d := by
  obtain ⟨-, -, -, -, -, -, h1, h2, h3, h4⟩ := h
  cases d with
  | mk y mo da ho mi se us tz =>
  simp only at h1 h2 h3 h4
  simp only [ofDayTime, timeOfDay, mk.injEq, true_and, and_true]
  refine ⟨?_, ?_, ?_, ?_⟩ <;> omega

theorem nextDay_valid {x x' : Nat × Nat × Nat} (h : ValidDate x) (hn : nextDay x.1 x.2.1 x.2.2 = some x') :
    ValidDate x' ∧ prevDay x'.1 x'.2.1 x'.2.2 = some x := by
  obtain ⟨y, m, d⟩ := x
  obtain ⟨a, b, c, e, f, g⟩ := h
  simp only at a b c e f g
  unfold nextDay at hn
  split at hn
  · simp only [Option.some.injEq] at hn; subst hn
    rename_i hlt
    simp only at hlt
    refine ⟨⟨a, b, c, e, by simp, by simp only; omega⟩, ?_⟩
    simp only [prevDay]
    rw [if_pos (by omega)]; rfl
  · have hd : d = daysInMonth y m := by simp only at *; omega
    split at hn
    · simp only [Option.some.injEq] at hn; subst hn
      refine ⟨⟨a, b, by simp, by simp only at *; omega, by simp, ?_⟩, ?_⟩
      · have := daysInMonth_pos y (m + 1); simp only; omega
      · simp only [prevDay]
        rw [if_neg (by omega), if_pos (by omega)]
        simp [hd]
    · split at hn
      · simp only [Option.some.injEq] at hn; subst hn
        have hm : m = 12 := by simp only at *; omega
        refine ⟨⟨by simp only at *; omega, by simp only at *; omega, by simp, by simp, by simp, ?_⟩, ?_⟩
        · have := daysInMonth_pos (y + 1) 1; simp only; omega
        · simp only [prevDay]
          rw [if_neg (by omega), if_neg (by omega), if_pos (by simp only at *; omega)]
          subst hm
          rw [hd]; simp [daysInMonth]
      · cases hn

theorem prevDay_valid {x x' : Nat × Nat × Nat} (h : ValidDate x) (hn : prevDay x.1 x.2.1 x.2.2 = some x') :
    ValidDate x' ∧ nextDay x'.1 x'.2.1 x'.2.2 = some x := by
  obtain ⟨y, m, d⟩ := x
  obtain ⟨a, b, c, e, f, g⟩ := h
  simp only at a b c e f g
  unfold prevDay at hn
  split at hn
  · simp only [Option.some.injEq] at hn; subst hn
    refine ⟨⟨a, b, c, e, by simp only at *; omega, by simp only; omega⟩, ?_⟩
    simp only [nextDay]
    rw [if_pos (by simp only at *; omega)]
    simp only at *
    rw [show d - 1 + 1 = d by omega]
  · have hd : d = 1 := by simp only at *; omega
    split at hn
    · simp only [Option.some.injEq] at hn; subst hn
      have := daysInMonth_pos y (m - 1)
      refine ⟨⟨a, b, by simp only at *; omega, by simp only at *; omega, by simp only; omega, by simp only; omega⟩, ?_⟩
      simp only [nextDay]
      rw [if_neg (by omega), if_pos (by simp only at *; omega)]
      simp only at *
      rw [show m - 1 + 1 = m by omega, hd]
    · split at hn
      · simp only [Option.some.injEq] at hn; subst hn
        have hm : m = 1 := by simp only at *; omega
        refine ⟨⟨by simp only at *; omega, by simp only at *; omega, by simp, by simp, by simp, by simp [daysInMonth]⟩, ?_⟩
        simp only [nextDay]
        rw [if_neg (by simp [daysInMonth]), if_neg (by omega), if_pos (by simp only at *; omega)]
        simp only at *
        rw [show y - 1 + 1 = y by omega, hm, hd]
      · cases hn

/-- The three cases of an addition. -/
theorem addMicros_cases {d d' : DateTime} {o : Int} (h : d.Valid) (ho : -dayMicros < o ∧ o < dayMicros)
    (ha : d.addMicros o = .ok d') :
    ∃ x' t', d' = ofDayTime x' t' d.tz ∧ 0 ≤ t' ∧ t' < dayMicros ∧ ValidDate x' ∧
      ((x' = (d.year, d.month, d.day) ∧ t' = d.timeOfDay + o) ∨
       (nextDay x'.1 x'.2.1 x'.2.2 = some (d.year, d.month, d.day) ∧ t' = d.timeOfDay + o + dayMicros) ∨
       (prevDay x'.1 x'.2.1 x'.2.2 = some (d.year, d.month, d.day) ∧ t' = d.timeOfDay + o - dayMicros)) := by
  have hb := timeOfDay_bounds h
  unfold addMicros at ha
  simp only at ha
  split at ha
  · rename_i hlt
    split at ha
    · cases ha
    · rename_i date hp
      simp only [Except.ok.injEq] at ha
      obtain ⟨hv, hn⟩ := prevDay_valid h.date hp
      exact ⟨date, _, ha.symm, by unfold dayMicros at *; omega, by unfold dayMicros at *; omega, hv,
        .inr (.inl ⟨hn, rfl⟩)⟩
  · split at ha
    · split at ha
      · cases ha
      · rename_i date hp
        simp only [Except.ok.injEq] at ha
        obtain ⟨hv, hn⟩ := nextDay_valid h.date hp
        exact ⟨date, _, ha.symm, by unfold dayMicros at *; omega, by unfold dayMicros at *; omega, hv,
          .inr (.inr ⟨hn, rfl⟩)⟩
    · simp only [Except.ok.injEq] at ha
      exact ⟨_, _, ha.symm, by omega, by omega, h.date, .inl ⟨rfl, rfl⟩⟩

theorem addMicros_valid {d d' : DateTime} {o : Int} (h : d.Valid) (ho : -dayMicros < o ∧ o < dayMicros)
    (ha : d.addMicros o = .ok d') : d'.Valid ∧ d'.tz = d.tz := by
  obtain ⟨x', t', rfl, h0, h1, hv, -⟩ := addMicros_cases h ho ha
  exact ⟨ofDayTime_valid hv h0 h1 _, rfl⟩

/-- Subtracting and adding an offset is the identity. -/
theorem addMicros_inverse {d d' : DateTime} {o : Int} (h : d.Valid) (ho : -dayMicros < o ∧ o < dayMicros)
    (ha : d.addMicros (-o) = .ok d') : d'.addMicros o = .ok d := by
  have hb := timeOfDay_bounds h
  obtain ⟨x', t', rfl, h0, h1, hv, hc⟩ := addMicros_cases h (by omega) ha
  unfold addMicros
  simp only [timeOfDay_ofDayTime x' h0 h1]
  have hx : (ofDayTime x' t' d.tz).year = x'.1 ∧ (ofDayTime x' t' d.tz).month = x'.2.1 ∧
      (ofDayTime x' t' d.tz).day = x'.2.2 ∧ (ofDayTime x' t' d.tz).tz = d.tz := ⟨rfl, rfl, rfl, rfl⟩
  rw [hx.1, hx.2.1, hx.2.2.1, hx.2.2.2]
  rcases hc with ⟨hx', ht⟩ | ⟨hn, ht⟩ | ⟨hn, ht⟩
  · rw [if_neg (by omega), if_neg (by omega), hx', ht]
    simp only
    rw [show d.timeOfDay + -o + o = d.timeOfDay by omega, ofDayTime_timeOfDay h]
  · rw [if_neg (by omega), if_pos (by omega), hn, ht]
    simp only
    rw [show d.timeOfDay + -o + dayMicros + o - dayMicros = d.timeOfDay by omega, ofDayTime_timeOfDay h]
  · rw [if_pos (by omega), hn, ht]
    simp only
    rw [show d.timeOfDay + -o - dayMicros + o + dayMicros = d.timeOfDay by omega, ofDayTime_timeOfDay h]

theorem addMicros_zero {d : DateTime} (h : d.Valid) : d.addMicros 0 = .ok d := by
  have hb := timeOfDay_bounds h
  unfold addMicros
  simp only [Int.add_zero]
  rw [if_neg (by omega), if_neg (by omega), ofDayTime_timeOfDay h]

/-- The same date-time with the seconds and microseconds replaced. -/
def withSeconds (d : DateTime) (s us : Nat) : DateTime := { d with second := s, micro := us }

/-- Adding whole minutes does not touch seconds and microseconds, and does not depend on them. -/
theorem addMicros_minutes {d : DateTime} {o : Int} (h : d.Valid) (ho : -dayMicros < o ∧ o < dayMicros)
    (hm : o % minuteMicros = 0) (s us : Nat) (hs : s < 60) (hus : us < 1000000) :
    (d.withSeconds s us).addMicros o = (d.addMicros o).map fun d' => d'.withSeconds s us := by
  obtain ⟨-, -, -, -, -, -, h1, h2, h3, h4⟩ := h
  have hr1 : ∃ (q : Int) (r1 r2 : Int), d.timeOfDay = q * 60000000 + r1 ∧ (d.withSeconds s us).timeOfDay = q * 60000000 + r2 ∧
      0 ≤ r1 ∧ r1 < 60000000 ∧ 0 ≤ r2 ∧ r2 < 60000000 ∧ r2 = s * 1000000 + us ∧ 0 ≤ q ∧ q < 1440 :=
    ⟨d.hour * 60 + d.minute, d.second * 1000000 + d.micro, s * 1000000 + us, by unfold timeOfDay; omega,
      by unfold timeOfDay withSeconds; simp only; omega, by omega, by omega, by omega, by omega, rfl, by omega, by omega⟩
  obtain ⟨q, r1, r2, hq1, hq2, b1, b2, b3, b4, b5, b6, b7⟩ := hr1
  unfold minuteMicros at hm
  unfold dayMicros at ho
  have key : ∀ (x : Nat × Nat × Nat) (a b : Int), 0 ≤ a → 0 ≤ b → a / 60000000 = b / 60000000 →
      a % 60000000 = r2 →
      ofDayTime x a d.tz = withSeconds (ofDayTime x b d.tz) s us := by
    intro x a b ha hb h1 h2
    simp only [ofDayTime, withSeconds, mk.injEq, true_and, and_true]
    omega
  unfold addMicros
  rw [hq1, hq2]
  simp only [show (d.withSeconds s us).year = d.year from rfl, show (d.withSeconds s us).month = d.month from rfl,
    show (d.withSeconds s us).day = d.day from rfl, show (d.withSeconds s us).tz = d.tz from rfl, dayMicros]
  obtain ⟨o', ho'⟩ : ∃ o', o = o' * 60000000 := ⟨o / 60000000, by omega⟩
  subst ho'
  clear b5 hq1 hq2 hm h1 h2 h3 h4
  by_cases c1 : q * 60000000 + r1 + o' * 60000000 < 0
  · have c1' : q * 60000000 + r2 + o' * 60000000 < 0 := by omega
    rw [if_pos c1', if_pos c1]
    cases prevDay d.year d.month d.day with
    | none => rfl
    | some x =>
      simp only [Except.map]
      congr 1
      apply key <;> omega
  · have c1' : ¬ q * 60000000 + r2 + o' * 60000000 < 0 := by omega
    rw [if_neg c1', if_neg c1]
    by_cases c2 : q * 60000000 + r1 + o' * 60000000 ≥ 86400000000
    · have c2' : q * 60000000 + r2 + o' * 60000000 ≥ 86400000000 := by omega
      simp only [c2', c2, if_true]
      cases nextDay d.year d.month d.day with
      | none => rfl
      | some x =>
        simp only [Except.map]
        congr 1
        apply key <;> omega
    · have c2' : ¬ q * 60000000 + r2 + o' * 60000000 ≥ 86400000000 := by omega
      simp only [c2', c2, if_false, Except.map]
      congr 1
      apply key <;> omega

theorem withSeconds_self (d : DateTime) : d.withSeconds d.second d.micro = d := rfl

theorem withSeconds_valid {d : DateTime} (h : d.Valid) {s us : Nat} (hs : s < 60) (hus : us < 1000000) :
    (d.withSeconds s us).Valid := by
  obtain ⟨a, b, c, d, e, f, g, i, -, -⟩ := h
  exact ⟨a, b, c, d, e, f, g, i, hs, hus⟩

end DateTime
end Ion

namespace Ion

theorem numDigits_mul_pow (n k : Nat) (h : n ≠ 0) : numDigits (n * 10 ^ k) = numDigits n + k := by
  induction k with
  | zero => simp
  | succ k ih =>
    have hpos : 0 < n * 10 ^ k := Nat.mul_pos (by omega) (Nat.pow_pos (by omega))
    rw [numDigits]
    have h10 : ¬ n * 10 ^ (k + 1) < 10 := by
      rw [Nat.pow_succ, ← Nat.mul_assoc]; omega
    rw [if_neg h10, Nat.pow_succ, ← Nat.mul_assoc, Nat.mul_div_cancel _ (by omega), ih]
    omega

namespace Dec

theorem roundHalfEven_mul (n k j : Nat) : roundHalfEven (n * 10 ^ (k + j)) k = n * 10 ^ j := by
  unfold roundHalfEven
  have hp : 0 < 10 ^ k := Nat.pow_pos (by omega)
  have e : n * 10 ^ (k + j) = n * 10 ^ j * 10 ^ k := by
    rw [Nat.pow_add, Nat.mul_assoc, Nat.mul_comm (10 ^ k)]
  rw [e]
  simp only [Nat.mul_div_cancel _ hp, Nat.mul_mod_left]
  rw [if_neg (by omega)]

theorem roundHalfEven_le (n k : Nat) : roundHalfEven n k ≤ n / 10 ^ k + 1 := by
  unfold roundHalfEven
  simp only
  split <;> omega

theorem mulMillion_toInt (f : Dec) (hu : f.inUnit = true) (hc : f.coeff < 10 ^ 28) :
    ∃ m, f.mulMillion = .ok m ∧ m.toInt = (1000000 * f.coeff / 10 ^ (-f.exp).toNat : Nat) := by
  unfold mulMillion fix
  simp only [defaultPrec]
  by_cases h0 : f.coeff = 0
  · simp only [h0, Nat.mul_zero, if_true]
    refine ⟨_, rfl, ?_⟩
    simp [toInt]
  · have hc0 : 1000000 * f.coeff ≠ 0 := by omega
    simp only [hc0, if_false]
    have hs : f.sign = false := by
      unfold inUnit at hu; simp only [h0, decide_false, Bool.false_or, Bool.and_eq_true] at hu
      simpa using hu.1
    have he : f.exp < 0 ∧ f.coeff < 10 ^ (-f.exp).toNat := by
      unfold inUnit at hu
      by_cases h : f.exp ≥ 0
      · simp [h, h0] at hu
      · simp [h] at hu; exact ⟨by omega, hu.2⟩
    have hnd : numDigits f.coeff ≤ 28 := (numDigits_le_iff _ _ (by omega)).2 hc
    have hnd2 : numDigits f.coeff ≤ (-f.exp).toNat := (numDigits_le_iff _ _ (by omega)).2 he.2
    have hpos := numDigits_pos f.coeff
    have h6 : (1000000 : Nat) = 10 ^ 6 := by decide
    have hd : numDigits (1000000 * f.coeff) = numDigits f.coeff + 6 := by rw [h6, Nat.mul_comm]; exact numDigits_mul_pow f.coeff 6 h0
    rw [hd, hs]
    have hE : ∃ E : Nat, (E : Int) = -(emin - ((28 - 1 : Nat) : Int)) ∧ 100 < E := ⟨1000026, by simp [emin], by omega⟩
    obtain ⟨E, hE, hE2⟩ := hE
    have hE' : emin - ((28 - 1 : Nat) : Int) = -(E : Int) := by omega
    simp only [hE']
    rw [if_neg (by unfold emax; omega)]
    split
    · rename_i hlt
      by_cases hEf : ¬ f.exp < -(E : Int)
      · rw [if_neg hEf]
        refine ⟨_, rfl, ?_⟩
        unfold toInt
        simp only [Bool.false_eq_true, if_false, show ¬ f.exp ≥ 0 by omega]
      have hEf : f.exp < -(E : Int) := Classical.not_not.1 hEf
      rw [if_pos hEf]
      have hcb : 1000000 * f.coeff < 10 ^ (numDigits f.coeff + 6) := by rw [← hd]; exact lt_pow_numDigits _
      have hk : 1000000 * f.coeff / 10 ^ (-(E : Int) - f.exp).toNat < 10 ^ 27 := by
        have h1 : numDigits f.coeff + 6 ≤ 27 + (-(E : Int) - f.exp).toNat := by omega
        apply (Nat.div_lt_iff_lt_mul (Nat.pow_pos (by omega))).2
        rw [← Nat.pow_add]
        exact Nat.lt_of_lt_of_le hcb (Nat.pow_le_pow_right (by omega) h1)
      have hr := roundHalfEven_le (1000000 * f.coeff) (-(E : Int) - f.exp).toNat
      generalize roundHalfEven (1000000 * f.coeff) (-(E : Int) - f.exp).toNat = r at *
      have hr2 : r < 10 ^ 28 := by omega
      have hr3 : numDigits r ≤ 28 := (numDigits_le_iff _ _ (by omega)).2 hr2
      simp only [show ¬ numDigits r > 28 by omega, if_false]
      rw [if_neg (by unfold emax; omega)]
      refine ⟨_, rfl, ?_⟩
      unfold toInt
      simp only [show ¬ (-(E : Int) ≥ 0) by omega, if_false, Int.neg_neg, Int.toNat_natCast]
      have hb : (10 : Nat) ^ 28 ≤ 10 ^ E := Nat.pow_le_pow_right (by omega) (by omega)
      rw [Nat.div_eq_of_lt (by omega)]
      have hb2 : 10 ^ (numDigits f.coeff + 6) ≤ 10 ^ (-f.exp).toNat := Nat.pow_le_pow_right (by omega) (by omega)
      rw [Nat.div_eq_of_lt (by omega)]
      simp
    · rename_i hge
      split
      · rename_i hlt
        obtain ⟨j, hj⟩ : ∃ j : Nat, (numDigits f.coeff + 6 - 28 : Int) + j = 6 := ⟨(28 - numDigits f.coeff), by omega⟩
        have hk : ((((numDigits f.coeff + 6 : Nat) : Int) + f.exp - 28) - f.exp).toNat + j = 6 := by omega
        generalize hkk : ((((numDigits f.coeff + 6 : Nat) : Int) + f.exp - ((28 : Nat) : Int)) - f.exp).toNat = k
        have hk6 : k + j = 6 := by omega
        have hr : roundHalfEven (1000000 * f.coeff) k = f.coeff * 10 ^ j := by
          have := roundHalfEven_mul f.coeff k j
          rw [hk6, ← h6, Nat.mul_comm] at this; exact this
        rw [hr]
        have hdr : numDigits (f.coeff * 10 ^ j) = 28 := by rw [numDigits_mul_pow _ _ h0]; omega
        simp only [hdr, show ¬ 28 > 28 by omega, if_false]
        rw [if_neg (by unfold emax; omega)]
        refine ⟨_, rfl, ?_⟩
        unfold toInt
        simp only [Bool.false_eq_true, if_false]
        by_cases hq : ((numDigits f.coeff + 6 : Nat) : Int) + f.exp - ((28 : Nat) : Int) ≥ 0
        · exfalso; omega
        · rw [if_neg hq]
          congr 1
          generalize hx : (-(((numDigits f.coeff + 6 : Nat) : Int) + f.exp - ((28 : Nat) : Int))).toNat = x
          have he' : (-f.exp).toNat = x + k := by omega
          rw [he', Nat.mul_comm 1000000, show (1000000 : Nat) = 10 ^ (j + k) by rw [Nat.add_comm, hk6, h6], Nat.pow_add, Nat.pow_add, ← Nat.mul_assoc,
            Nat.mul_div_mul_right _ _ (Nat.pow_pos (by omega))]
      · refine ⟨_, rfl, ?_⟩
        unfold toInt
        simp only [Bool.false_eq_true, if_false, show ¬ f.exp ≥ 0 by omega]

end Dec

namespace Timestamp

/-- What the constructor does with a fraction argument. -/
theorem normalise_frac (f : Dec) (r : Int × Int × Dec) :
    normalise none none (some f) = .ok r ↔
      f.inUnit = true ∧ ∃ m, (if f.coeff = 0 ∧ f.exp > 0 then Dec.zero else f).mulMillion = .ok m ∧
        r = (m.toInt, min (-(if f.coeff = 0 ∧ f.exp > 0 then Dec.zero else f).exp) 6,
          if f.coeff = 0 ∧ f.exp > 0 then Dec.zero else f) := by
  unfold normalise
  by_cases hu : f.inUnit = true
  · simp only [hu, Option.isSome_some, Option.isSome_none, Option.isNone_none, Bool.or_self, Bool.and_false,
      Bool.false_and, Bool.false_eq_true, if_false, not_true_eq_false, pure_bind, true_and,
      bind, Except.bind, pure, Except.pure, reduceCtorEq, decide_false]
    cases hm : (if f.coeff = 0 ∧ f.exp > 0 then Dec.zero else f).mulMillion with
    | error e => simp
    | ok m => simp [eq_comm]
  · simp [hu, throw, throwThe, MonadExceptOf.throw, bind, Except.bind]

theorem inUnit_zero : Dec.zero.inUnit = true := by decide

/-- Normalisation is idempotent. -/
theorem normalise_idem (micro fracPrecision : Option Int) (frac : Option Dec) (m p : Int) (f : Dec)
    (h : normalise micro fracPrecision frac = .ok (m, p, f)) (hm : 0 ≤ m ∧ m < 1000000) :
    normalise none none (some f) = .ok (m, p, f) := by
  have hzero : normalise none none (some Dec.zero) = .ok (0, 0, Dec.zero) := by decide
  cases frac with
  | some g =>
    have hnn : micro = none ∧ fracPrecision = none := by
      unfold normalise at h
      cases micro <;> cases fracPrecision <;>
        simp [throw, throwThe, MonadExceptOf.throw, bind, Except.bind, pure, Except.pure] at h ⊢
      all_goals (split at h <;> try (simp at h))
      all_goals (split at h <;> simp at h)
    obtain ⟨rfl, rfl⟩ := hnn
    obtain ⟨hu, x, hx, hr⟩ := (normalise_frac _ _).1 h
    simp only [Prod.mk.injEq] at hr
    by_cases hz : g.coeff = 0 ∧ g.exp > 0
    · simp only [hz, and_self, if_true] at hr hx
      obtain ⟨h1, h2, h3⟩ := hr
      have : Dec.zero.mulMillion = .ok Dec.zero := by decide
      rw [this] at hx
      cases hx
      rw [h1, h2, h3]; decide
    · simp only [hz, if_false] at hr hx
      obtain ⟨h1, h2, rfl⟩ := hr
      exact h
  | none =>
    cases micro with
    | none =>
      unfold normalise at h
      cases fracPrecision with
      | none =>
        simp [throw, throwThe, MonadExceptOf.throw, bind, Except.bind, pure, Except.pure] at h
        obtain ⟨rfl, rfl, rfl⟩ := h
        exact hzero
      | some q =>
        simp [throw, throwThe, MonadExceptOf.throw, bind, Except.bind, pure, Except.pure] at h
    | some mm =>
      have hq : ∃ q : Int, 0 ≤ q ∧ q ≤ 6 ∧ ((q = 0 ∧ (m, p, f) = (mm, 0, Dec.zero) ∧ mm = 0) ∨
          (0 < q ∧ 0 ≤ mm ∧ mm < 1000000 ∧ mm.toNat % 10 ^ (6 - q).toNat = 0 ∧
            (m, p, f) = (mm, q, ⟨false, mm.toNat / 10 ^ (6 - q).toNat, -q⟩))) := by
        unfold normalise at h
        cases fracPrecision with
        | none =>
          simp only [Option.isSome_none, Option.isSome_some, Option.isNone_some, Bool.or_true, Bool.false_and,
            Bool.false_eq_true, if_false, pure_bind, bind, Except.bind, pure, Except.pure, Option.getD_none,
            reduceCtorEq, decide_false] at h
          refine ⟨6, by omega, by omega, .inr ?_⟩
          split at h
          · omega
          · split at h
            · rename_i hb
              split at h
              · rename_i hd
                simp only [Except.ok.injEq] at h
                exact ⟨by omega, hb.1, hb.2, hd, h.symm⟩
              · cases h
            · cases h
        | some q =>
          simp only [Option.isSome_none, Option.isSome_some, Option.isNone_some, Bool.or_true, Bool.false_and,
            Bool.and_false, throw, throwThe, MonadExceptOf.throw,
            Bool.false_eq_true, if_false, pure_bind, bind, Except.bind, pure, Except.pure, Option.getD_some] at h
          split at h
          · cases h
          · rename_i hb
            · have hr' : 0 ≤ q ∧ q ≤ 6 := Classical.not_not.1 hb
              split at h
              · cases h
              · rename_i hz
                · refine ⟨q, hr'.1, hr'.2, ?_⟩
                  split at h
                  · rename_i hq0
                    left
                    subst hq0
                    simp only [Except.ok.injEq] at h
                    refine ⟨rfl, h.symm, ?_⟩
                    simpa using hz
                  · right
                    split at h
                    · rename_i hb
                      split at h
                      · rename_i hd
                        simp only [Except.ok.injEq] at h
                        exact ⟨by omega, hb.1, hb.2, hd, h.symm⟩
                      · cases h
                    · cases h
      obtain ⟨q, hq0, hq6, ⟨-, h, rfl⟩ | ⟨hq1, hm0, hm1, hdiv, h⟩⟩ := hq
      · simp only [Prod.mk.injEq] at h
        obtain ⟨rfl, rfl, rfl⟩ := h
        exact hzero
      · simp only [Prod.mk.injEq] at h
        obtain ⟨rfl, rfl, rfl⟩ := h
        obtain ⟨qn, rfl⟩ : ∃ qn : Nat, p = qn := ⟨p.toNat, by omega⟩
        obtain ⟨mn, rfl⟩ : ∃ mn : Nat, m = mn := ⟨m.toNat, by omega⟩
        simp only [Int.toNat_natCast] at *
        have h6 : (6 - (qn : Int)).toNat = 6 - qn := by omega
        rw [h6] at hdiv ⊢
        have hpow : 10 ^ (6 - qn) * 10 ^ qn = (1000000 : Nat) := by
          rw [← Nat.pow_add, show 6 - qn + qn = 6 by omega]
        obtain ⟨c, rfl⟩ := Nat.dvd_of_mod_eq_zero hdiv
        have hp0 : 0 < 10 ^ (6 - qn) := Nat.pow_pos (by omega)
        rw [Nat.mul_div_cancel_left _ hp0]
        have hc : c < 10 ^ qn := by
          apply Nat.lt_of_mul_lt_mul_left (a := 10 ^ (6 - qn)); omega
        have hu : (⟨false, c, -(qn : Int)⟩ : Dec).inUnit = true := by
          unfold Dec.inUnit
          simp only [Bool.not_false, Bool.or_true, Bool.true_and, show ¬ (-(qn : Int)) ≥ 0 by omega, if_false,
            Int.neg_neg, Int.toNat_natCast, decide_eq_true hc]
        have hc28 : c < 10 ^ 28 := Nat.lt_of_lt_of_le hc (Nat.pow_le_pow_right (by omega) (by omega))
        obtain ⟨x, hx, hxi⟩ := Dec.mulMillion_toInt ⟨false, c, -(qn : Int)⟩ hu hc28
        refine (normalise_frac _ _).2 ⟨hu, x, ?_, ?_⟩
        · rw [if_neg (by simp)]; exact hx
        · rw [if_neg (by simp), hxi]
          simp only [Int.neg_neg, Int.toNat_natCast, Prod.mk.injEq, and_true]
          refine ⟨?_, by omega⟩
          rw [← hpow, Nat.mul_right_comm, Nat.mul_div_cancel _ (Nat.pow_pos (by omega))]

/-- Invariants of every timestamp built by the constructor. -/
theorem new_inv {a : TimestampArgs} {t : Timestamp} (h : Timestamp.new a = .ok t) :
    t.dt.Valid ∧ t.dt.tz = a.tz ∧ t.precision = a.precision ∧
    t.dt.year = a.year ∧ t.dt.month = a.month ∧ t.dt.day = a.day ∧ t.dt.hour = a.hour ∧ t.dt.minute = a.minute ∧
    t.dt.second = a.second ∧
    normalise a.micro a.fracPrecision a.frac = .ok ((t.dt.micro : Int), t.fracPrecision, t.frac) ∧
    normalise none none (some t.frac) = .ok ((t.dt.micro : Int), t.fracPrecision, t.frac) := by
  unfold new at h
  cases hn : normalise a.micro a.fracPrecision a.frac with
  | error e => rw [hn] at h; simp [bind, Except.bind] at h
  | ok r =>
    obtain ⟨m, p, f⟩ := r
    rw [hn] at h
    simp only [bind, Except.bind, pure, Except.pure] at h
    split at h
    · cases h
    · rename_i hm0
      · unfold DateTime.new at h
        split at h
        · cases h
        · rename_i d hd
          split at hd
          · rename_i hv
            simp only [Except.ok.injEq] at h hd
            subst hd h
            have hmic : ((m.toNat : Nat) : Int) = m := by omega
            refine ⟨hv, rfl, rfl, rfl, rfl, rfl, rfl, rfl, rfl, ?_, ?_⟩
            · simp only [hmic]
            · simp only [hmic]
              refine normalise_idem _ _ _ _ _ _ hn ⟨by omega, ?_⟩
              have := hv.2.2.2.2.2.2.2.2.2
              simp only at this; omega
          · cases hd

/-- Constructing from a fraction. -/
theorem new_frac {y mo d ho mi s us : Nat} {tz : Option Int} {p : Option Precision} {f : Dec} {fp : Int}
    (hn : normalise none none (some f) = .ok ((us : Int), fp, f))
    (hv : (⟨y, mo, d, ho, mi, s, us, tz⟩ : DateTime).Valid) :
    Timestamp.new ⟨y, mo, d, ho, mi, s, none, tz, p, none, some f⟩ = .ok ⟨⟨y, mo, d, ho, mi, s, us, tz⟩, p, fp, f⟩ := by
  unfold new
  simp only [hn, bind, Except.bind, pure, Except.pure]
  rw [if_neg (by omega)]
  unfold DateTime.new
  simp [hv]

/-- Constructing without a fraction. -/
theorem new_nofrac {y mo d ho mi s : Nat} {tz : Option Int} {p : Option Precision}
    (hv : (⟨y, mo, d, ho, mi, s, 0, tz⟩ : DateTime).Valid) :
    Timestamp.new ⟨y, mo, d, ho, mi, s, none, tz, p, none, none⟩ = .ok ⟨⟨y, mo, d, ho, mi, s, 0, tz⟩, p, 0, Dec.zero⟩ := by
  have hn : normalise none none none = .ok (0, 0, Dec.zero) := by decide
  unfold new
  simp only [hn, bind, Except.bind, pure, Except.pure]
  rw [if_neg (by omega)]
  unfold DateTime.new
  simp [hv]

end Timestamp
end Ion
