import Verif.EventEquality
import Verif.Props.Equivalence
/-!
# C62: events are compared by what they say
-/
set_option linter.unusedSimpArgs false
namespace Ion.EventEquality
open Ion Ion.Equivalence Ion.Equivalence.Spec

/-! ## Specification -/

/-- The value of an event is one for its Ion type: nothing (a null, the start or end of a container), or a Python object of the
class for the type. -/
def Fits : Option IonType → Option PyVal → Prop
  | _, none => True
  | some .bool, some (.bool _) => True
  | some .int, some (.int _) => True
  | some .float, some (.float _) => True
  | some .decimal, some (.decimal _) => True
  | some .timestamp, some (.timestamp (.ts t)) => t.dt.Valid ∧ t.precision ≠ none
  | some .symbol, some (.sym _) => True
  | some .string, some (.str _) => True
  | some .clob, some (.bytes _) => True
  | some .blob, some (.bytes _) => True
  | _, _ => False

/-- The two values are the same: floats up to the sign of a zero and the payload of a NaN, decimals and fractions of seconds as
numbers, everything else exactly. -/
inductive SameValue : Option PyVal → Option PyVal → Prop
  | none : SameValue none none
  | bool (b) : SameValue (some (.bool b)) (some (.bool b))
  | int (i) : SameValue (some (.int i)) (some (.int i))
  | float {x y} (h : x = y ∨ (IsNaN x ∧ IsNaN y) ∨ ((x = 0 ∨ x = 0x8000000000000000) ∧ (y = 0 ∨ y = 0x8000000000000000))) :
      SameValue (some (.float x)) (some (.float y))
  | decimal {a b} (h : fraction a = fraction b) : SameValue (some (.decimal a)) (some (.decimal b))
  | timestamp {s t : Timestamp} (hd : s.dt = t.dt) (hp : s.precision = t.precision) (hf : fraction s.frac = fraction t.frac) :
      SameValue (some (.timestamp (.ts s))) (some (.timestamp (.ts t)))
  | symbol (t) : SameValue (some (.sym t)) (some (.sym t))
  | string (t) : SameValue (some (.str t)) (some (.str t))
  | bytes (t) : SameValue (some (.bytes t)) (some (.bytes t))

/-- Two events say the same. -/
structure SameEvent (a b : IonEvent) (v w : Option PyVal) : Prop where
  kind : a.eventType = b.eventType
  type : a.ionType = b.ionType
  value : SameValue v w
  field : a.fieldName = b.fieldName
  annotations : a.annotations = b.annotations
  depth : a.depth = b.depth

/-- The event has a value, which fits its type. -/
def Good (e : IonEvent) (v : Option PyVal) : Prop := e.value = .ok v ∧ Fits e.ionType v

/-! ## Proof -/

theorem bools (b c : Bool) : valuesEq (some (.bool b)) (some (.bool c)) = true ↔ SameValue (some (.bool b)) (some (.bool c)) := by
  constructor
  · intro h
    cases b <;> cases c <;> simp [valuesEq, optEq, valEq, numVal, numEq, precisionsEq, isTs, fractionsEq, offsetsEq] at h
    all_goals constructor
  · intro h
    cases h
    cases b <;> simp [valuesEq, optEq, valEq, numVal, numEq, precisionsEq, isTs, fractionsEq, offsetsEq]

theorem ints (i j : Int) : valuesEq (some (.int i)) (some (.int j)) = true ↔ SameValue (some (.int i)) (some (.int j)) := by
  constructor
  · intro h
    simp [valuesEq, optEq, valEq, numVal, numEq, precisionsEq, isTs, fractionsEq, offsetsEq] at h
    subst h; constructor
  · intro h; cases h
    simp [valuesEq, optEq, valEq, numVal, numEq, precisionsEq, isTs, fractionsEq, offsetsEq]

theorem floats (x y : UInt64) : valuesEq (some (.float x)) (some (.float y)) = true ↔ SameValue (some (.float x)) (some (.float y)) := by
  simp only [valuesEq, floatEq, Bool.or_eq_true, Bool.and_eq_true, Bool.not_eq_true', decide_eq_true_eq, isZero_iff, isNaN_iff]
  constructor
  · rintro (⟨_, h | h⟩ | h)
    · exact .float (.inl h)
    · exact .float (.inr (.inr h))
    · exact .float (.inr (.inl h))
  · intro h
    cases h with
    | float h =>
      rcases h with rfl | h | h
      · rw [← isNaN_iff]
        cases hn : isNaN x <;> simp
      · exact .inr h
      · refine .inl ⟨?_, .inr h⟩
        rcases h with ⟨rfl | rfl, rfl | rfl⟩ <;> decide

theorem decimals (a b : Dec) : valuesEq (some (.decimal a)) (some (.decimal b)) = true ↔ SameValue (some (.decimal a)) (some (.decimal b)) := by
  simp only [valuesEq, optEq, valEq, numVal, numEq, precisionsEq, isTs, fractionsEq, offsetsEq]
  simp only [Bool.or_self, Bool.false_eq_true, if_false, Bool.and_true, decide_eq_true_eq]
  exact ⟨fun h => .decimal h, fun h => by cases h with | decimal h => exact h⟩

theorem timestamps (s t : Timestamp) (hv : s.dt.Valid ∧ s.precision ≠ none) (hw : t.dt.Valid ∧ t.precision ≠ none) :
    valuesEq (some (.timestamp (.ts s))) (some (.timestamp (.ts t))) = true ↔
      SameValue (some (.timestamp (.ts s))) (some (.timestamp (.ts t))) := by
  obtain ⟨p, hs⟩ := Option.ne_none_iff_exists'.mp hv.2
  obtain ⟨q, ht⟩ := Option.ne_none_iff_exists'.mp hw.2
  have e1 : precisionsEq (some (.timestamp (.ts s))) (some (.timestamp (.ts t))) = true ↔ p = q := by
    unfold precisionsEq
    simp [isTs, precisionOf, hs, ht]
  have e2 : fractionsEq (some (.timestamp (.ts s))) (some (.timestamp (.ts t))) = true ↔ fraction s.frac = fraction t.frac :=
    decide_eq_true_iff
  have e3 : offsetsEq (some (.timestamp (.ts s))) (some (.timestamp (.ts t))) = true ↔ s.dt.tz = t.dt.tz := decide_eq_true_iff
  have e4 : valuesEq (some (.timestamp (.ts s))) (some (.timestamp (.ts t))) = true ↔
      ((dateTimeEq s.dt t.dt = true ∧ p = q) ∧ fraction s.frac = fraction t.frac) ∧ s.dt.tz = t.dt.tz := by
    rw [← e1, ← e2, ← e3, ← Bool.and_eq_true_iff, ← Bool.and_eq_true_iff, ← Bool.and_eq_true_iff]
    rfl
  rw [e4]
  constructor
  · rintro ⟨⟨⟨h1, h2⟩, h3⟩, h4⟩
    exact .timestamp (instant_inj hv.1 hw.1 h4 ((dateTimeEq_iff hv.1 hw.1 h4).mp h1)) (by rw [hs, ht, h2]) h3
  · intro h
    cases h with
    | timestamp hd hp hf =>
      refine ⟨⟨⟨?_, by simpa [hs, ht] using hp⟩, hf⟩, by rw [hd]⟩
      rw [hd]; exact dateTimeEq_self _

theorem fits_valuesEq {ty : Option IonType} {v w : Option PyVal} (hv : Fits ty v) (hw : Fits ty w) :
    valuesEq v w = true ↔ SameValue v w := by
  cases v with
  | none =>
    cases w with
    | none => exact ⟨fun _ => .none, fun _ => rfl⟩
    | some w => exact ⟨fun h => by simp [valuesEq, optEq] at h, fun h => by cases h⟩
  | some v =>
    cases w with
    | none => exact ⟨fun h => by cases v <;> simp [valuesEq, optEq] at h, fun h => by cases h⟩
    | some w =>
      rcases ty with _ | ty
      · exact absurd hv (by simp [Fits])
      rcases v with b | i | x | d | hd | (t | t) | k | t | t <;> cases ty <;> first | exact (hv : False).elim | skip
      all_goals rcases w with b' | i' | x' | d' | hd' | (t' | t') | k' | t' | t' <;> first | exact (hw : False).elim | skip
      · exact bools _ _
      · exact ints _ _
      · exact floats _ _
      · exact decimals _ _
      · exact timestamps _ _ hv hw
      all_goals
        constructor
        · intro h
          simp [valuesEq, optEq, valEq, numVal, numEq, precisionsEq, isTs, fractionsEq, offsetsEq] at h
          subst h; constructor
        · intro h; cases h
          simp [valuesEq, optEq, valEq, numVal, numEq, precisionsEq, isTs, fractionsEq, offsetsEq]

/-- C62: two events are equal (`==`) exactly if they say the same. -/
theorem C62_equal_iff (a b : IonEvent) (v w : Option PyVal) (ha : Good a v) (hb : Good b w) :
    ∃ r, eventEq a b = .ok r ∧ (r = true ↔ SameEvent a b v w) := by
  obtain ⟨ha, hfa⟩ := ha
  obtain ⟨hb, hfb⟩ := hb
  refine ⟨_, by unfold eventEq; rw [ha, hb]; rfl, ?_⟩
  simp only [Bool.and_eq_true, decide_eq_true_eq]
  constructor
  · rintro ⟨⟨⟨⟨⟨h1, h2⟩, h3⟩, h4⟩, h5⟩, h6⟩
    rw [← h3] at hfb
    exact ⟨h2, h3, (fits_valuesEq hfa hfb).mp h1, h4, h5, h6⟩
  · intro h
    have hfb' := hfb
    rw [← h.type] at hfb'
    exact ⟨⟨⟨⟨⟨(fits_valuesEq hfa hfb').mpr h.value, h.kind⟩, h.type⟩, h.field⟩, h.annotations⟩, h.depth⟩

theorem SameValue.refl_of_fits {ty : Option IonType} {v : Option PyVal} (h : Fits ty v) : SameValue v v := by
  cases v with
  | none => exact .none
  | some v =>
    rcases ty with _ | ty
    · exact absurd h (by simp [Fits])
    rcases v with b | i | x | d | hd | (t | t) | k | t | t <;> cases ty <;> first | exact (h : False).elim | skip
    all_goals first | exact .float (.inl rfl) | exact .decimal rfl | exact .timestamp rfl rfl rfl | constructor

theorem SameValue.symm {v w : Option PyVal} (h : SameValue v w) : SameValue w v := by
  cases h with
  | float h => exact .float (by rcases h with h | h | h <;> [exact .inl h.symm; exact .inr (.inl h.symm); exact .inr (.inr h.symm)])
  | decimal h => exact .decimal h.symm
  | timestamp hd hp hf => exact .timestamp hd.symm hp.symm hf.symm
  | _ => constructor

theorem not_nan_zero {x : UInt64} (h : IsNaN x) : ¬ (x = 0 ∨ x = 0x8000000000000000) := by
  rintro (rfl | rfl) <;> simp [IsNaN] at h

theorem SameValue.trans {u v w : Option PyVal} (h : SameValue u v) (h' : SameValue v w) : SameValue u w := by
  cases h with
  | float h =>
    cases h' with
    | float h' =>
      refine .float ?_
      rcases h with rfl | h | h
      · exact h'
      · rcases h' with rfl | h' | h'
        · exact .inr (.inl h)
        · exact .inr (.inl ⟨h.1, h'.2⟩)
        · exact absurd h'.1 (not_nan_zero h.2)
      · rcases h' with rfl | h' | h'
        · exact .inr (.inr h)
        · exact absurd h.2 (not_nan_zero h'.1)
        · exact .inr (.inr ⟨h.1, h'.2⟩)
  | decimal h => cases h' with | decimal h' => exact .decimal (h.trans h')
  | timestamp hd hp hf => cases h' with | timestamp hd' hp' hf' => exact .timestamp (hd.trans hd') (hp.trans hp') (hf.trans hf')
  | _ => exact h'

/-- C62: among events with a value that fits their type, `==` is an equivalence relation. -/
theorem C62_equivalence_partial :
    (∀ a v, Good a v → eventEq a a = .ok true) ∧
    (∀ a b v w, Good a v → Good b w → eventEq a b = .ok true → eventEq b a = .ok true) ∧
    (∀ a b c u v w, Good a u → Good b v → Good c w → eventEq a b = .ok true → eventEq b c = .ok true → eventEq a c = .ok true) := by
  have key : ∀ {a b v w}, Good a v → Good b w → (eventEq a b = .ok true ↔ SameEvent a b v w) := by
    intro a b v w ha hb
    obtain ⟨r, h1, h2⟩ := C62_equal_iff a b v w ha hb
    rw [h1, ← h2]; simp
  refine ⟨fun a v ha => ?_, fun a b v w ha hb h => ?_, fun a b c u v w ha hb hc h h' => ?_⟩
  · exact (key ha ha).mpr ⟨rfl, rfl, .refl_of_fits ha.2, rfl, rfl, rfl⟩
  · have h := (key ha hb).mp h
    exact (key hb ha).mpr ⟨h.kind.symm, h.type.symm, h.value.symm, h.field.symm, h.annotations.symm, h.depth.symm⟩
  · have h := (key ha hb).mp h
    have h' := (key hb hc).mp h'
    exact (key ha hc).mpr ⟨h.kind.trans h'.kind, h.type.trans h'.type, h.value.trans h'.value, h.field.trans h'.field,
      h.annotations.trans h'.annotations, h.depth.trans h'.depth⟩

/-- The theorems apply to an annotated timestamp in a struct. -/
example : Good { eventType := .scalar, ionType := some .timestamp, fieldName := some (.text [97]), annotations := [.tok ⟨some [98], some 10, none⟩], depth := some 1, value := .ok (some (.timestamp (.ts ⟨⟨2020, 2, 29, 12, 0, 1, 500000, some 0⟩, some .second, 1, ⟨false, 5, -1⟩⟩))) }
    (some (.timestamp (.ts ⟨⟨2020, 2, 29, 12, 0, 1, 500000, some 0⟩, some .second, 1, ⟨false, 5, -1⟩⟩))) :=
  ⟨rfl, by simp only [Fits]; decide, by simp⟩

/-! ## Limits -/

/-- An event for a scalar. -/
def scalarEvent (ty : IonType) (v : PyVal) : IonEvent := { eventType := .scalar, ionType := some ty, value := .ok (some v), depth := some 0 }

/-- C62, negative: `!=` is not the negation of `==`.  Two events of NaN are both `==` and `!=`; two events of timestamps of the same
instant and different precision (2020T and 2020-01T) are neither. -/
theorem C62_ne_is_not_negation :
    (let n := scalarEvent .float (.float 0x7FF8000000000000); eventEq n n = .ok true ∧ eventNe n n = .ok true) ∧
    (let y := scalarEvent .timestamp (.timestamp (.ts ⟨⟨2020, 1, 1, 0, 0, 0, 0, none⟩, some .year, 0, ⟨false, 0, 0⟩⟩))
     let m := scalarEvent .timestamp (.timestamp (.ts ⟨⟨2020, 1, 1, 0, 0, 0, 0, none⟩, some .month, 0, ⟨false, 0, 0⟩⟩))
     eventEq y m = .ok false ∧ eventNe y m = .ok false) := by
  decide +kernel

/-- C62, negative: with a value of another class than that of the type, the order of the operands matters. -/
theorem C62_other_class_asymmetric :
    eventEq (scalarEvent .float (.int 1)) (scalarEvent .float (.float 0x3FF0000000000000)) = .ok true ∧
    eventEq (scalarEvent .float (.float 0x3FF0000000000000)) (scalarEvent .float (.int 1)) = .ok false := by
  decide +kernel

/-- C62, negative: with a plain `datetime` among the values, `==` is not transitive: it equals two timestamps that differ in the
seventh digit of the seconds. -/
theorem C62_datetime_not_transitive :
    let d : DateTime := ⟨2020, 1, 1, 0, 0, 0, 0, none⟩
    let s := scalarEvent .timestamp (.timestamp (.ts ⟨d, some .second, 6, ⟨false, 1, -7⟩⟩))
    let p := scalarEvent .timestamp (.timestamp (.dt d))
    let t := scalarEvent .timestamp (.timestamp (.ts ⟨d, some .second, 6, ⟨false, 2, -7⟩⟩))
    eventEq s p = .ok true ∧ eventEq p t = .ok true ∧ eventEq s t = .ok false := by
  decide +kernel

end Ion.EventEquality
