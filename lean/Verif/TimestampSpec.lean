import Verif.IonSpec
set_option linter.unusedSimpArgs false
/-!
# Timestamps: the writer and the parser against the specification of `IonSpec`
-/
namespace Ion.Scalars
open Ion Ion.Fields Ion.Fields.Spec Ion.Scalars.Spec Ion.Spec

/-- A decimal value field as written denotes the decimal. -/
theorem writeDecimalValue_spec (d : Dec) :
    IsDecimalBody (toBytes (writeDecimalValue d.exp (if d.sign then -(d.coeff : Int) else d.coeff) d.sign)) d := by
  right
  unfold writeDecimalValue
  have hve := (C01_varint d.exp []).1
  refine ⟨toBytes (writeVarInt d.exp), _, _, _, toBytes_append _ _, hve, ?_, ?_⟩
  · by_cases hn : d.exp < 0 <;> simp [hn] <;> omega
  · by_cases h0 : d.coeff = 0
    · have hif : (if d.sign = true then -(d.coeff : Int) else (d.coeff : Int)) = 0 := by rw [h0]; simp
      rw [hif]
      cases hsg : d.sign with
      | false => left; simp [h0]
      | true =>
        right
        simp only [ne_eq, not_true_eq_false, if_false, if_true]
        exact ⟨0x80, [], rfl, by decide, by rw [h0]; decide⟩
    · have hne : (if d.sign = true then -(d.coeff : Int) else (d.coeff : Int)) ≠ 0 := by split <;> omega
      rw [if_pos hne]
      right
      have := (C01_int (if d.sign = true then -(d.coeff : Int) else (d.coeff : Int))).1
      have h1 : decide ((if d.sign = true then -(d.coeff : Int) else (d.coeff : Int)) < 0) = d.sign := by
        cases d.sign <;> simp <;> omega
      have h2 : (if d.sign = true then -(d.coeff : Int) else (d.coeff : Int)).natAbs = d.coeff := by
        split <;> omega
      rw [h1, h2] at this
      exact this

theorem isDecimalBody_ne_nil_of_write (e c : Int) (s : Bool) : toBytes (writeDecimalValue e c s) ≠ [] := by
  unfold writeDecimalValue
  rw [toBytes_append]
  intro h
  have := (List.append_eq_nil_iff.1 h).1
  have hl := writeVarInt_length_pos e
  have := congrArg List.length this
  simp at this
  rw [this] at hl
  simp at hl

/-- The fraction field as written. -/
theorem fraction_spec (f : Dec) (h : FracOk f) (hu : f.inUnit = true) (hz : ¬ (f.coeff = 0 ∧ f.exp > 0)) :
    ∃ fb, writeTimestampFraction f = .ok fb ∧
      ((toBytes fb = [] ∧ f = ⟨false, 0, 0⟩) ∨ (toBytes fb ≠ [] ∧ IsDecimalBody (toBytes fb) f)) := by
  obtain ⟨h1, h2, h3⟩ := h
  have hnd : numDigits f.coeff ≤ 28 := (numDigits_le_iff _ _ (by omega)).2 h1
  have hexp : f.exp ≤ 0 := by
    by_cases h0 : f.coeff = 0
    · have : ¬ f.exp > 0 := fun h => hz ⟨h0, h⟩
      omega
    · unfold Dec.inUnit at hu
      by_cases h : f.exp ≥ 0
      · simp [h, h0] at hu
      · omega
  obtain ⟨s, hs, hc⟩ := scaled_coefficient 28 f (by omega) hnd (by omega) (by omega)
  unfold writeTimestampFraction
  simp only [Dec.defaultPrec, hs, hc, bind, Except.bind, pure, Except.pure]
  by_cases hcz : (if f.sign = true then -(f.coeff : Int) else (f.coeff : Int)) = 0 ∧ f.exp ≥ 0
  · rw [if_pos hcz]
    refine ⟨[], rfl, .inl ⟨rfl, ?_⟩⟩
    have h0 : f.coeff = 0 := by have := hcz.1; split at this <;> omega
    have he : f.exp = 0 := by omega
    have hsg : f.sign = false := by
      cases hsg : f.sign with
      | false => rfl
      | true => exact absurd ⟨h0, he, hsg⟩ h3
    cases f; simp_all
  · rw [if_neg hcz]
    exact ⟨_, rfl, .inr ⟨isDecimalBody_ne_nil_of_write _ _ _, writeDecimalValue_spec f⟩⟩

theorem offset_spec (tz : Option Int) (h : OffsetOk tz) : IsOffset (toBytes (offsetField tz)) tz := by
  cases tz with
  | none => exact .inl ⟨rfl, .last _ (by decide), 0xC0, [], rfl, by decide, by decide⟩
  | some o =>
    obtain ⟨h1, h2, h3⟩ := h o rfl
    unfold minuteMicros at h1
    unfold dayMicros at h2 h3
    right
    refine ⟨_, _, (C01_varint (o / minuteMicros) []).1, ?_, ?_, ?_⟩
    · unfold minuteMicros; simp; omega
    · unfold minuteMicros; omega
    · congr 1
      unfold minuteMicros
      by_cases hn : o / 60000000 < 0
      · simp only [hn, decide_true, if_true]; omega
      · simp only [hn, decide_false, Bool.false_eq_true, if_false]; omega

/-- The timestamp objects for which the writer is faithful (C08): made by the constructor, or plain `datetime`s; offsets
in whole minutes; a known non-zero offset only with a time; fractions of at most 28 digits. -/
def RegularTime : TimeVal → Prop
  | .ts t => (∃ a, Timestamp.new a = .ok t) ∧ OffsetOk t.dt.tz ∧ FracOk t.frac ∧
      ((t.precision.getD .second).includesMinute = true ∨ t.dt.tz = none ∨ t.dt.tz = some 0)
  | .dt d => d.Valid ∧ OffsetOk d.tz

theorem varUInt_spec (n : Nat) : IsVarUInt (toBytes (writeVarUInt n)) n := (C01_varuint n []).1

/-- The fields as written, seen from the UTC time `u'` of the normalised value. -/
theorem fields_spec (p : Precision) (u u' : DateTime) (frac : Dec) (fb : List Nat)
    (h : p = .second → (toBytes fb = [] ∧ frac = ⟨false, 0, 0⟩) ∨ (toBytes fb ≠ [] ∧ IsDecimalBody (toBytes fb) frac))
    (hy : u'.year = u.year) (hm : p.includesMonth = true → u'.month = u.month)
    (hd : p.includesDay = true → u'.day = u.day)
    (hh : p.includesMinute = true → u'.hour = u.hour ∧ u'.minute = u.minute)
    (hs : p.includesSecond = true → u'.second = u.second) :
    IsTimeFields u' frac p (toBytes (fieldBytes p u fb)) := by
  cases p <;>
    simp only [fieldBytes, Precision.includesMonth, Precision.includesDay, Precision.includesMinute,
      Precision.includesSecond, Precision.toNat, decide_true, decide_false, if_true, if_false, Bool.false_eq_true,
      List.append_nil, Nat.le_refl, Nat.reduceLeDiff, toBytes_append, toBytes_nil]
  · exact .year _ (by rw [hy]; exact varUInt_spec _)
  · exact .month _ _ (by rw [hy]; exact varUInt_spec _) (by rw [hm rfl]; exact varUInt_spec _)
  · exact .day _ _ _ (by rw [hy]; exact varUInt_spec _) (by rw [hm rfl]; exact varUInt_spec _)
      (by rw [hd rfl]; exact varUInt_spec _)
  · have := IsTimeFields.minute (u := u') (frac := frac) (toBytes (writeVarUInt u.year)) (toBytes (writeVarUInt u.month))
      (toBytes (writeVarUInt u.day)) (toBytes (writeVarUInt u.hour)) (toBytes (writeVarUInt u.minute))
      (by rw [hy]; exact varUInt_spec _) (by rw [hm rfl]; exact varUInt_spec _)
      (by rw [hd rfl]; exact varUInt_spec _) (by rw [(hh rfl).1]; exact varUInt_spec _)
      (by rw [(hh rfl).2]; exact varUInt_spec _)
    simpa using this
  · have := IsTimeFields.second (u := u') (frac := frac) (toBytes (writeVarUInt u.year)) (toBytes (writeVarUInt u.month))
      (toBytes (writeVarUInt u.day)) (toBytes (writeVarUInt u.hour)) (toBytes (writeVarUInt u.minute))
      (toBytes (writeVarUInt u.second)) (toBytes fb)
      (by rw [hy]; exact varUInt_spec _) (by rw [hm rfl]; exact varUInt_spec _)
      (by rw [hd rfl]; exact varUInt_spec _) (by rw [(hh rfl).1]; exact varUInt_spec _)
      (by rw [(hh rfl).2]; exact varUInt_spec _) (by rw [hs rfl]; exact varUInt_spec _) (h rfl)
    simpa using this

theorem DateTime_cut_cut (d : DateTime) (p : Precision) : (d.cut p).cut p = d.cut p := by cases p <;> rfl

/-- What the constructor guarantees about the sub-second attributes. -/
theorem new_frac_facts {a : TimestampArgs} {t : Timestamp} (hnew : Timestamp.new a = .ok t) (hfr : t.frac.coeff < 10 ^ 28) :
    t.frac.inUnit = true ∧ ¬ (t.frac.coeff = 0 ∧ t.frac.exp > 0) ∧ t.fracPrecision = min (-t.frac.exp) 6 ∧
    t.dt.micro = 1000000 * t.frac.coeff / 10 ^ (-t.frac.exp).toNat := by
  obtain ⟨hv, -, -, -, -, -, -, -, -, -, hidem⟩ := Timestamp.new_inv hnew
  have hun := (Timestamp.normalise_frac _ _).1 hidem
  have hzn : ¬ (t.frac.coeff = 0 ∧ t.frac.exp > 0) := by
    intro hc
    obtain ⟨-, m, -, hr⟩ := hun
    simp only [hc, and_self, if_true, Prod.mk.injEq] at hr
    have := hc.2
    rw [hr.2.2] at this
    simp [Dec.zero] at this
  obtain ⟨hu, m, hm, hr⟩ := hun
  rw [if_neg hzn] at hm
  simp only [if_neg hzn, Prod.mk.injEq, and_true] at hr
  refine ⟨hu, hzn, hr.2, ?_⟩
  obtain ⟨m', hm', hi⟩ := Dec.mulMillion_toInt t.frac hu hfr
  rw [hm'] at hm
  simp only [Except.ok.injEq] at hm
  subst hm
  have := hr.1
  rw [hi] at this
  exact Int.ofNat.inj this

/-- UTC of the time cut to a precision that includes the minute. -/
theorem utc_of_cut {d u : DateTime} {o : Int} (hv : d.Valid) (ho : o % minuteMicros = 0 ∧ -dayMicros < o ∧ o < dayMicros)
    (hu : d.addMicros (-o) = .ok u) (p : Precision) (hp : p.includesMinute = true) :
    ∃ u', (d.cut p).addMicros (-o) = .ok u' ∧ u'.year = u.year ∧ u'.month = u.month ∧ u'.day = u.day ∧ u'.hour = u.hour ∧
      u'.minute = u.minute ∧ (p = .second → u' = u) := by
  obtain ⟨h1, h2, h3⟩ := ho
  have hno : (-o) % minuteMicros = 0 := by unfold minuteMicros at *; omega
  cases p with
  | year => cases hp
  | month => cases hp
  | day => cases hp
  | second => exact ⟨u, hu, rfl, rfl, rfl, rfl, rfl, fun _ => rfl⟩
  | minute =>
    have := DateTime.addMicros_minutes hv (by omega) hno 0 0 (by omega) (by omega)
    rw [hu] at this
    exact ⟨_, this, rfl, rfl, rfl, rfl, rfl, fun h => by cases h⟩

/-- The writer's timestamp body encodes the value of a regular timestamp object. -/
theorem timestampBody_spec (v : TimeVal) (hr : RegularTime v) (bs : List Nat) (h : timestampBody v = .ok bs) :
    IsTimestampBody (toBytes bs) (timeValue v) := by
  cases v with
  | ts t =>
    obtain ⟨⟨a, hnew⟩, hoff, hfr, hdate⟩ := hr
    obtain ⟨u, fb, hu, hfb, rfl⟩ := timestampBody_ts t bs h
    obtain ⟨hunit, hzn, hdig, hmic⟩ := new_frac_facts hnew hfr.1
    have hv := (Timestamp.new_inv hnew).1
    obtain ⟨fb', hfb', hfs⟩ := fraction_spec t.frac hfr hunit hzn
    unfold timeValue
    simp only
    generalize hp : t.precision.getD .second = p at *
    have htz : (t.dt.cut p).tz = t.dt.tz := by cases p <;> rfl
    -- the UTC time of the cut value
    have hu' : ∃ u', (match (t.dt.cut p).tz with | none => u' = t.dt.cut p | some o => (t.dt.cut p).addMicros (-o) = .ok u') ∧
        u'.year = u.year ∧ (p.includesMonth = true → u'.month = u.month) ∧ (p.includesDay = true → u'.day = u.day) ∧
        (p.includesMinute = true → u'.hour = u.hour ∧ u'.minute = u.minute) ∧
        (p.includesSecond = true → u'.second = u.second) := by
      rw [htz]
      cases htzv : t.dt.tz with
      | none =>
        rw [htzv] at hu
        simp only at hu
        subst hu
        refine ⟨t.dt.cut p, rfl, ?_⟩
        cases p <;> simp [DateTime.cut, Precision.includesMonth, Precision.includesDay, Precision.includesMinute,
          Precision.includesSecond, Precision.toNat]
      | some o =>
        rw [htzv] at hu
        simp only at hu
        by_cases hm : p.includesMinute = true
        · obtain ⟨u', h1, h2, h3, h4, h5, h6, h7⟩ := utc_of_cut hv (hoff o htzv) hu p hm
          refine ⟨u', h1, h2, fun _ => h3, fun _ => h4, fun _ => ⟨h5, h6⟩, ?_⟩
          intro hs
          have : p = .second := by cases p <;> first | rfl | cases hs
          rw [h7 this]
        · have ho : o = 0 := by
            rcases hdate with h | h | h
            · exact absurd h hm
            · rw [htzv] at h; cases h
            · rw [htzv] at h; simpa using h
          subst ho
          rw [Int.neg_zero, DateTime.addMicros_zero hv] at hu
          simp only [Except.ok.injEq] at hu
          subst hu
          refine ⟨t.dt.cut p, ?_, ?_⟩
          · simp only [Int.neg_zero]
            exact DateTime.addMicros_zero (DateTime.cut_valid hv p)
          · cases p <;> simp [DateTime.cut, Precision.includesMonth, Precision.includesDay, Precision.includesMinute,
              Precision.includesSecond, Precision.toNat]
    obtain ⟨u', h1, h2, h3, h4, h5, h6⟩ := hu'
    by_cases hs : p = .second
    · subst hs
      rw [if_pos rfl]
      have hfbe := hfb rfl
      rw [hfb'] at hfbe
      simp only [Except.ok.injEq] at hfbe
      subst hfbe
      refine ⟨.second, u', toBytes (offsetField t.dt.tz), _, ?_, offset_spec _ hoff, h1,
        fields_spec .second u u' t.frac fb' (fun _ => hfs) h2 h3 h4 h5 h6, toBytes_append _ _⟩
      refine ⟨rfl, hv, rfl, fun h => (by cases h), hdig, hunit, ?_, hmic, fun h => absurd rfl h⟩
      intro h0
      have : ¬ t.frac.exp > 0 := fun h => hzn ⟨h0, h⟩
      show t.frac.exp ≤ 0
      omega
    · rw [if_neg hs]
      refine ⟨p, u', toBytes (offsetField t.dt.tz), _, ?_, ?_, h1,
        fields_spec p u u' ⟨false, 0, 0⟩ fb (fun h => absurd h hs) h2 h3 h4 h5 h6, toBytes_append _ _⟩
      · refine ⟨rfl, DateTime.cut_valid hv p, DateTime_cut_cut _ _, ?_, rfl, rfl, fun _ => Int.le_refl 0, ?_, fun _ => rfl⟩
        · intro hm
          simp only [htz]
          rcases hdate with h | h
          · rw [hm] at h; cases h
          · exact h
        · cases p <;> first | exact absurd rfl hs | simp [DateTime.cut]
      · simp only [htz]; exact offset_spec _ hoff
  | dt d =>
    obtain ⟨hv, hoff⟩ := hr
    unfold timestampBody at h
    simp only [TimeVal.dateTime, TimeVal.precision, bind, Except.bind, pure, Except.pure] at h
    have hinc : Precision.second.includesSecond = true ∧ Precision.second.includesMonth = true ∧
      Precision.second.includesDay = true ∧ Precision.second.includesMinute = true := ⟨rfl, rfl, rfl, rfl⟩
    simp only [hinc.1, hinc.2.1, hinc.2.2.1, hinc.2.2.2, if_true] at h
    have hval : IsTimeValue (timeValue (.dt d)) .second := by
      refine ⟨rfl, hv, rfl, fun h => (by cases h), (by simp [timeValue]), ?_, ?_, ?_, fun h => absurd rfl h⟩
      · have := hv.2.2.2.2.2.2.2.2.2
        simp [timeValue, Dec.inUnit]
        exact this
      · simp [timeValue]
      · simp [timeValue]
    have hkey : ∀ u : DateTime, u.micro = d.micro →
        (match d.tz with | none => u = d | some o => d.addMicros (-o) = .ok u) →
        bs = offsetField d.tz ++ fieldBytes .second u (writeDecimalValue (-6) u.micro false) →
        IsTimestampBody (toBytes bs) (timeValue (.dt d)) := by
      intro u hmu hu hbs
      subst hbs
      refine ⟨.second, u, toBytes (offsetField d.tz), _, hval, offset_spec _ hoff, hu,
        fields_spec .second u u _ _ (fun _ => .inr ⟨isDecimalBody_ne_nil_of_write _ _ _, ?_⟩) rfl (fun _ => rfl) (fun _ => rfl)
          (fun _ => ⟨rfl, rfl⟩) (fun _ => rfl), toBytes_append _ _⟩
      have := writeDecimalValue_spec (⟨false, d.micro, -6⟩ : Dec)
      simp only [Bool.false_eq_true, if_false] at this
      rw [hmu]
      exact this
    cases htz : d.tz with
    | none =>
      rw [htz] at h
      simp only [Except.ok.injEq] at h
      refine hkey d rfl (by rw [htz]) ?_
      rw [← h, htz]
      simp [offsetField, fieldBytes, hinc]
    | some o =>
      rw [htz] at h
      simp only at h
      cases hu : d.addMicros (-o) with
      | error e => rw [hu] at h; cases h
      | ok u =>
        rw [hu] at h
        simp only [Except.ok.injEq] at h
        have hmu : u.micro = d.micro := by
          obtain ⟨hm, hlo, hhi⟩ := hoff o htz
          have h3 := hv.2.2.2.2.2.2.2.2
          have := DateTime.addMicros_minutes hv (o := -o) (by omega) (by unfold minuteMicros at *; omega) d.second d.micro h3.1 h3.2
          rw [DateTime.withSeconds_self, hu] at this
          simp only [Except.map, Except.ok.injEq] at this
          rw [this]; rfl
        refine hkey u hmu (by rw [htz]; exact hu) ?_
        rw [← h, htz]
        simp [offsetField, fieldBytes, hinc]

/-! ## The parser -/

theorem isVarUInt_ne_nil {bs : Bytes} {n : Nat} (h : IsVarUInt bs n) : bs ≠ [] := by
  rintro rfl; cases h.1

theorem varLoop_spec {bs : Bytes} {n : Nat} (h : IsVarUInt bs n) (rest : Bytes) :
    parseVarLoop 0 (bs ++ rest) = .ok (n, rest) := by
  rw [parseVarLoop_delimited h.1, h.2]

theorem isEmpty_spec {bs : Bytes} {n : Nat} (h : IsVarUInt bs n) (rest : Bytes) : (bs ++ rest).isEmpty = false := by
  have := isVarUInt_ne_nil h
  cases bs with
  | nil => exact absurd rfl this
  | cons a l => rfl

theorem parse_offset_spec (off : Bytes) (tz : Option Int) (h : IsOffset off tz) (rest : Bytes) :
    ∃ s v, parseVarComponents (off ++ rest) true = .ok (s, v, rest) ∧
      (if s = -1 ∧ (v : Int) * s = 0 then (.ok none : Except PyErr (Option Int)) else do
        let d ← offsetTZInfo ((v : Int) * s * minuteMicros)
        return some d) = .ok tz := by
  rcases h with ⟨rfl, h⟩ | ⟨neg, n, h, hz, hn, rfl⟩
  · exact ⟨_, _, C04_parse_varint _ _ _ _ h, by simp⟩
  · refine ⟨_, _, C04_parse_varint _ _ _ _ h, ?_⟩
    cases neg with
    | false =>
      simp only [Bool.false_eq_true, if_false]
      rw [if_neg (by omega)]
      unfold offsetTZInfo dayMicros minuteMicros
      rw [if_neg (by omega)]
      simp [bind, Except.bind, pure, Except.pure]
    | true =>
      simp only [if_true]
      rw [if_neg (by simp at hz; omega)]
      unfold offsetTZInfo dayMicros minuteMicros
      rw [if_neg (by omega)]
      simp [bind, Except.bind, pure, Except.pure]

theorem parse_fraction_spec (f : Bytes) (frac : Dec) (hf : FracOk frac) (hu : frac.inUnit = true)
    (hz : frac.coeff = 0 → frac.exp ≤ 0)
    (h : (f = [] ∧ frac = ⟨false, 0, 0⟩) ∨ (f ≠ [] ∧ IsDecimalBody f frac)) :
    (if f.isEmpty then (.ok none : Except PyErr (Option Dec)) else do
        let f ← parseDecimal f
        return if f.coeff = 0 ∧ f.exp > -1 then none else some f) =
      .ok (if frac.coeff = 0 ∧ frac.exp = 0 then none else some frac) := by
  rcases h with ⟨rfl, rfl⟩ | ⟨hne, hb⟩
  · simp
  · have hrr : ReadRange frac := by
      by_cases h0 : frac.coeff = 0
      · exact .inl h0
      · have hnd : numDigits frac.coeff ≤ 28 := (numDigits_le_iff _ _ (by omega)).2 hf.1
        have hpos := numDigits_pos frac.coeff
        have he : frac.exp < 0 := by
          unfold Dec.inUnit at hu
          by_cases h : frac.exp ≥ 0
          · simp [h, h0] at hu
          · omega
        have hsg : frac.sign = false := by
          unfold Dec.inUnit at hu; simp only [h0, decide_false, Bool.false_or, Bool.and_eq_true] at hu
          simpa using hu.1
        right
        rw [hsg]; simp only [Bool.false_eq_true, if_false]
        have := hf.2.1
        omega
    have hie : f.isEmpty = false := by cases f with | nil => exact absurd rfl hne | cons a l => rfl
    rw [hie, C05_reader_exact f frac hne hb hrr]
    simp only [Bool.false_eq_true, if_false, bind, Except.bind, pure, Except.pure, Except.ok.injEq]
    by_cases h0 : frac.coeff = 0
    · have := hz h0
      by_cases he : frac.exp = 0
      · simp [h0, he]
      · rw [if_neg (by omega), if_neg (by omega)]
    · simp [h0]

/-- The parser on any legal spelling of the fields. -/
theorem parseTimestamp_fields_spec (off fields : Bytes) (tz : Option Int) (h : IsOffset off tz) (p : Precision) (u : DateTime)
    (frac : Dec) (hfo : FracOk frac) (hu : frac.inUnit = true) (hz : frac.coeff = 0 → frac.exp ≤ 0)
    (hf : IsTimeFields u frac p fields) :
    parseTimestamp (off ++ fields) =
      Timestamp.adjustFromUtcFields
        ⟨u.year, if p.includesMonth then u.month else 1, if p.includesDay then u.day else 1,
          if p.includesMinute then u.hour else 0, if p.includesMinute then u.minute else 0,
          if p.includesSecond then u.second else 0, none, tz, some p, none,
          if p.includesSecond then (if frac.coeff = 0 ∧ frac.exp = 0 then none else some frac) else none⟩ := by
  unfold parseTimestamp
  obtain ⟨s, v, hp, ht⟩ := parse_offset_spec off tz h fields
  rw [hp]
  simp only [bind, Except.bind, pure, Except.pure] at ht ⊢
  rw [ht]
  have t1 : ∀ {bs : Bytes} {n : Nat}, IsVarUInt bs n → parseVarLoop 0 bs = .ok (n, []) := by
    intro bs n hb; have := varLoop_spec hb []; rwa [List.append_nil] at this
  have t2 : ∀ {bs : Bytes} {n : Nat}, IsVarUInt bs n → bs.isEmpty = false := by
    intro bs n hb; have := isEmpty_spec hb []; rwa [List.append_nil] at this
  cases hf with
  | year _ hy =>
    simp only [t1 hy, List.isEmpty_nil, if_true, Precision.includesMonth, Precision.includesDay, Precision.includesMinute,
      Precision.includesSecond, Precision.toNat, decide_false, if_false, Bool.false_eq_true, Nat.reduceLeDiff]
  | month y m hy hm =>
    simp only [varLoop_spec hy, t1 hm, t2 hm, List.isEmpty_nil, if_true, Precision.includesMonth, Precision.includesDay,
      Precision.includesMinute, Precision.includesSecond, Precision.toNat, decide_false, decide_true, if_false,
      Bool.false_eq_true, Nat.reduceLeDiff, Nat.le_refl]
  | day y m d hy hm hd =>
    simp only [List.append_assoc, varLoop_spec hy, varLoop_spec hm, isEmpty_spec hm, t1 hd, t2 hd, List.isEmpty_nil, if_true,
      Precision.includesMonth, Precision.includesDay,
      Precision.includesMinute, Precision.includesSecond, Precision.toNat, decide_false, decide_true, if_false,
      Bool.false_eq_true, Nat.reduceLeDiff, Nat.le_refl]
  | minute y m d h mi hy hm hd hh hmi =>
    simp only [List.append_assoc, varLoop_spec hy, varLoop_spec hm, isEmpty_spec hm, varLoop_spec hd, isEmpty_spec hd,
      varLoop_spec hh, isEmpty_spec hh, t1 hmi, t2 hmi, List.isEmpty_nil, if_true,
      Precision.includesMonth, Precision.includesDay,
      Precision.includesMinute, Precision.includesSecond, Precision.toNat, decide_false, decide_true, if_false,
      Bool.false_eq_true, Nat.reduceLeDiff, Nat.le_refl]
  | second y m d h mi s f hy hm hd hh hmi hs hfr =>
    have hff := parse_fraction_spec f frac hfo hu hz hfr
    simp only [bind, Except.bind, pure, Except.pure] at hff
    simp only [List.append_assoc, varLoop_spec hy, varLoop_spec hm, isEmpty_spec hm, varLoop_spec hd, isEmpty_spec hd,
      varLoop_spec hh, isEmpty_spec hh, varLoop_spec hmi, isEmpty_spec hmi, varLoop_spec hs, isEmpty_spec hs,
      List.isEmpty_nil, if_true,
      Precision.includesMonth, Precision.includesDay,
      Precision.includesMinute, Precision.includesSecond, Precision.toNat, decide_false, decide_true, if_false,
      Bool.false_eq_true, Nat.reduceLeDiff, Nat.le_refl]
    rw [hff]

theorem new_of_fields {y mo d ho mi s us : Nat} {tz : Option Int} {p : Option Precision} {f : Dec} {fp : Int}
    (hf : FracOk f) (hn : Timestamp.normalise none none (some f) = .ok ((us : Int), fp, f))
    (hv : (⟨y, mo, d, ho, mi, s, us, tz⟩ : DateTime).Valid) :
    Timestamp.new ⟨y, mo, d, ho, mi, s, none, tz, p, none, if f.coeff = 0 ∧ f.exp = 0 then none else some f⟩
      = .ok ⟨⟨y, mo, d, ho, mi, s, us, tz⟩, p, fp, f⟩ := by
  by_cases h0 : f.coeff = 0 ∧ f.exp = 0
  · have hfz : f = Dec.zero := by
      obtain ⟨h1, h2⟩ := h0
      have hsg : f.sign = false := by
        cases hsg : f.sign with
        | false => rfl
        | true => exact absurd ⟨h1, h2, hsg⟩ hf.2.2
      cases f; simp_all [Dec.zero]
    subst hfz
    have hd : Timestamp.normalise none none (some Dec.zero) = .ok (0, 0, Dec.zero) := by decide
    rw [hd] at hn
    simp only [Except.ok.injEq, Prod.mk.injEq, and_true] at hn
    have hus : us = 0 := by have := hn.1; omega
    have hfp := hn.2
    subst hus hfp
    rw [if_pos h0]
    exact Timestamp.new_nofrac hv
  · rw [if_neg h0]
    exact Timestamp.new_frac hn hv

theorem normalise_of_value {t : Timestamp} {p : Precision} (h : IsTimeValue t p) (hf : FracOk t.frac) :
    Timestamp.normalise none none (some t.frac) = .ok ((t.dt.micro : Int), t.fracPrecision, t.frac) := by
  rw [Timestamp.normalise_frac]
  obtain ⟨m, hm, hi⟩ := Dec.mulMillion_toInt t.frac h.unit hf.1
  have hz : ¬ (t.frac.coeff = 0 ∧ t.frac.exp > 0) := by
    rintro ⟨h0, h1⟩; have := h.zero h0; omega
  refine ⟨h.unit, m, by rw [if_neg hz]; exact hm, ?_⟩
  simp only [if_neg hz, hi, h.digits, h.micro]

/-- The parser reads every legal encoding of a timestamp value as that value. -/
theorem parseTimestamp_spec (body : Bytes) (t : Timestamp) (h : IsTimestampBody body t) (hf : FracOk t.frac) :
    parseTimestamp body = .ok t := by
  obtain ⟨p, u, off, fields, hval, hoff, hu, hfields, rfl⟩ := h
  rw [parseTimestamp_fields_spec off fields _ hoff p u t.frac hf hval.unit hval.zero hfields]
  have hn := normalise_of_value hval hf
  have hv := hval.valid
  obtain ⟨dt, prec, fp, fr⟩ := t
  have hprec := hval.precision
  have hcut := hval.cut
  have hco := hval.coarse
  simp only at hprec hcut hco hn hv hu hf
  subst hprec
  -- the fraction argument does not depend on whether the precision includes it
  have hfrac : (if p.includesSecond then (if fr.coeff = 0 ∧ fr.exp = 0 then none else some fr) else none) =
      if fr.coeff = 0 ∧ fr.exp = 0 then none else some fr := by
    by_cases hs : p = .second
    · subst hs; rfl
    · rw [hco hs]; simp
  simp only [hfrac]
  have hargs : ∀ w : DateTime, w.Valid → w.tz = dt.tz → w.micro = dt.micro → w.cut p = w →
      Timestamp.new ⟨w.year, if p.includesMonth then w.month else 1, if p.includesDay then w.day else 1,
          if p.includesMinute then w.hour else 0, if p.includesMinute then w.minute else 0,
          if p.includesSecond then w.second else 0, none, dt.tz, some p, none,
          if fr.coeff = 0 ∧ fr.exp = 0 then none else some fr⟩ = .ok ⟨w, some p, fp, fr⟩ := by
    intro w hw htz hmi hc
    have e1 : (if p.includesMonth then w.month else 1) = w.month := by
      cases p <;> first | rfl | (rw [← hc]; rfl)
    have e2 : (if p.includesDay then w.day else 1) = w.day := by
      cases p <;> first | rfl | (rw [← hc]; rfl)
    have e3 : (if p.includesMinute then w.hour else 0) = w.hour := by
      cases p <;> first | rfl | (rw [← hc]; rfl)
    have e4 : (if p.includesMinute then w.minute else 0) = w.minute := by
      cases p <;> first | rfl | (rw [← hc]; rfl)
    have e5 : (if p.includesSecond then w.second else 0) = w.second := by
      cases p <;> first | rfl | (rw [← hc]; rfl)
    rw [e1, e2, e3, e4, e5]
    have hwd : (⟨w.year, w.month, w.day, w.hour, w.minute, w.second, dt.micro, dt.tz⟩ : DateTime) = w := by
      rw [← hmi, ← htz]
    have := new_of_fields (p := some p) (tz := dt.tz) hf hn (y := w.year) (mo := w.month) (d := w.day) (ho := w.hour)
      (mi := w.minute) (s := w.second) (by rw [hwd]; exact hw)
    rw [this, hwd]
  unfold Timestamp.adjustFromUtcFields
  by_cases hzero : dt.tz = none ∨ dt.tz = some 0
  · have hut : u = dt := by
      rcases hzero with h0 | h0
      · rw [h0] at hu; exact hu
      · rw [h0] at hu
        simp only [Int.neg_zero] at hu
        rw [DateTime.addMicros_zero hv] at hu
        simpa using hu.symm
    subst hut
    rw [hargs u hv rfl rfl hcut]
    simp only [bind, Except.bind, pure, Except.pure]
    rcases hzero with h0 | h0 <;> rw [h0]
    simp
  · have hmin : p.includesMinute = true := by
      cases hm : p.includesMinute with
      | true => rfl
      | false => exact absurd (hval.dated hm) hzero
    cases htz : dt.tz with
    | none => exact absurd (.inl htz) hzero
    | some o =>
      have ho0 : o ≠ 0 := fun h => hzero (.inr (by rw [htz, h]))
      rw [htz] at hu
      simp only at hu
      have hob : o % minuteMicros = 0 ∧ -dayMicros < o ∧ o < dayMicros := by
        simp only [htz] at hoff
        rcases hoff with ⟨h, -⟩ | ⟨neg, n, -, -, hn, ho⟩
        · cases h
        · simp only [Option.some.injEq] at ho
          unfold minuteMicros dayMicros
          split at ho <;> omega
      obtain ⟨hm, hlo, hhi⟩ := hob
      have hno : (-o) % minuteMicros = 0 := by unfold minuteMicros at *; omega
      have hbo : -dayMicros < -o ∧ -o < dayMicros := by omega
      obtain ⟨huv, hutz⟩ := DateTime.addMicros_valid hv hbo hu
      have husec : u.second = dt.second ∧ u.micro = dt.micro := by
        have h3 := hv.2.2.2.2.2.2.2.2
        have := DateTime.addMicros_minutes hv hbo hno dt.second dt.micro h3.1 h3.2
        rw [DateTime.withSeconds_self, hu] at this
        simp only [Except.map, Except.ok.injEq] at this
        rw [this]
        exact ⟨rfl, rfl⟩
      have hback := DateTime.addMicros_inverse hv ⟨hlo, hhi⟩ hu
      have hucut : u.cut p = u := by
        cases p with
        | year => cases hmin
        | month => cases hmin
        | day => cases hmin
        | second => rfl
        | minute =>
          have h1 : dt.second = 0 := by rw [← hcut]; rfl
          have h2 : dt.micro = 0 := by rw [← hcut]; rfl
          rw [h1, h2] at husec
          obtain ⟨a, b, c, d, e, f, g, k⟩ := u
          simp only at husec
          rw [husec.1, husec.2]; rfl
      rw [← htz, hargs u huv hutz husec.2 hucut]
      simp only [bind, Except.bind, pure, Except.pure]
      have : u.tz = some o := by rw [hutz, htz]
      rw [this]
      simp only [if_neg ho0]
      rw [hback]
      simp only
      have hnf := Timestamp.new_frac (p := some p) (tz := some o) hn (y := dt.year) (mo := dt.month) (d := dt.day) (ho := dt.hour)
        (mi := dt.minute) (s := dt.second) (by rw [← htz]; exact hv)
      rw [hnf, ← htz]

end Ion.Scalars
