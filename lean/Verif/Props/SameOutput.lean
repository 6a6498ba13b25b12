import Verif.Props.Transcoding
/-!
# C67: what is written depends on the Ion values only

Two Python objects that stand for the same Ion values are written as the same bytes.
-/
namespace Ion.Scalars
open Ion Ion.Fields Ion.Spec

theorem micro_kept {d : DateTime} (hv : d.Valid) {o : Int} (ho : o % minuteMicros = 0 ∧ -dayMicros < o ∧ o < dayMicros) {u : DateTime}
    (hu : d.addMicros (-o) = .ok u) : u.micro = d.micro := by
  obtain ⟨hm, hlo, hhi⟩ := ho
  have h3 := hv.2.2.2.2.2.2.2.2
  have := DateTime.addMicros_minutes hv (o := -o) (by omega) (by unfold minuteMicros at *; omega) d.second d.micro h3.1 h3.2
  rw [DateTime.withSeconds_self, hu] at this
  simp only [Except.map, Except.ok.injEq] at this
  rw [this]; rfl

/-- The bytes of a regular timestamp are those of its Ion value. -/
theorem timestampBody_value (v : TimeVal) (hr : RegularTime v) : timestampBody (.ts (timeValue v)) = timestampBody v := by
  cases v with
  | ts t =>
    obtain ⟨⟨a, hnew⟩, hoff, hfr, hdate⟩ := hr
    have hv := (Timestamp.new_inv hnew).1
    by_cases hp : t.precision.getD .second = .second
    · simp only [timeValue, hp, if_true]
      simp only [timestampBody, TimeVal.dateTime, TimeVal.precision, hp, Option.getD_some]
      rfl
    · simp only [timeValue, hp, if_false]
      generalize hpe : t.precision.getD .second = p at *
      have htz : (t.dt.cut p).tz = t.dt.tz := by cases p <;> rfl
      simp only [timestampBody, TimeVal.dateTime, TimeVal.precision, hpe, Option.getD_some, htz]
      cases htzv : t.dt.tz with
      | none =>
        cases p <;> first | exact absurd rfl hp | simp [DateTime.cut, Precision.includesMonth, Precision.includesDay,
          Precision.includesMinute, Precision.includesSecond, Precision.toNat, bind, Except.bind, pure, Except.pure]
      | some o =>
        by_cases hm : p.includesMinute = true
        · have hpm : p = .minute := by cases p <;> first | rfl | exact absurd hm (by decide) | exact absurd rfl hp
          subst hpm
          obtain ⟨hm, hlo, hhi⟩ := hoff o htzv
          have := DateTime.addMicros_minutes hv (o := -o) (by omega) (by unfold minuteMicros at *; omega) 0 0 (by omega) (by omega)
          have hc : t.dt.cut .minute = t.dt.withSeconds 0 0 := rfl
          simp only
          rw [hc, this]
          cases t.dt.addMicros (-o) with
          | error e => rfl
          | ok u => simp [Except.map, DateTime.withSeconds, Precision.includesMonth, Precision.includesDay, Precision.includesMinute,
              Precision.includesSecond, Precision.toNat, bind, Except.bind, pure, Except.pure]
        · have ho : o = 0 := by
            rcases hdate with h | h | h
            · exact absurd h hm
            · rw [htzv] at h; cases h
            · rw [htzv] at h; simpa using h
          subst ho
          simp only [Int.neg_zero, DateTime.addMicros_zero hv, DateTime.addMicros_zero (DateTime.cut_valid hv p)]
          cases p <;> first | exact absurd rfl hp | simp [DateTime.cut, Precision.includesMonth, Precision.includesDay,
            Precision.includesMinute, Precision.includesSecond, Precision.toNat, bind, Except.bind, pure, Except.pure]
  | dt d =>
    obtain ⟨hv, hoff⟩ := hr
    have hmic : d.micro < 10 ^ 6 := by have := hv.2.2.2.2.2.2.2.2.2; omega
    have hfrac : ∀ n : Nat, n = d.micro → writeTimestampFraction ⟨false, d.micro, -6⟩ = .ok (writeDecimalValue (-6) (n : Int) false) := by
      intro n hn
      subst hn
      have hnd : numDigits d.micro ≤ 28 := (numDigits_le_iff _ _ (by omega)).2 (by omega)
      obtain ⟨s, hs, hc⟩ := scaled_coefficient 28 ⟨false, d.micro, -6⟩ (by omega) hnd (by simp only; omega) (by simp)
      unfold writeTimestampFraction
      simp only [Dec.defaultPrec, hs, hc, bind, Except.bind, pure, Except.pure]
      rw [if_neg (by simp)]
      simp
    simp only [timeValue, timestampBody, TimeVal.dateTime, TimeVal.precision, Option.getD_some]
    cases htz : d.tz with
    | none => simp [hfrac d.micro rfl, bind, Except.bind, pure, Except.pure]; rfl
    | some o =>
      cases hu : d.addMicros (-o) with
      | error e => simp [hu, bind, Except.bind]
      | ok u => simp [hu, bind, Except.bind, pure, Except.pure, hfrac u.micro (micro_kept hv (hoff o htz) hu)]; rfl

end Ion.Scalars

namespace Ion.Simple.SameOutput
open Ion Ion.Spec Ion.Simple Ion.Simple.Spec Ion.ManagedWriter

/-! ## The events for an Ion value -/

/-- A symbol with a given text, or the symbol with unknown text. -/
def tokOf : Option Text → SymbolToken
  | some t => ⟨some t, none, none⟩
  | none => ⟨none, some 0, none⟩

/-- A Python value for a scalar; `None` for a null. -/
def pyOf : Scalar (Option Text) → Option PyVal
  | .null _ => none
  | .bool b => some (.bool b)
  | .int i => some (.int i)
  | .float b => some (.float b)
  | .decimal d => some (.decimal d)
  | .timestamp t => some (.timestamp (.ts t))
  | .symbol s => some (.sym (tokOf s))
  | .string t => some (.str t)
  | .clob b => some (.bytes b)
  | .blob b => some (.bytes b)

mutual
/-- Events that describe an Ion value. -/
def eventsOf : Val → List IonEvent
  | .scalar f a x => [{ eventType := .scalar, ionType := some x.ty, value := .ok (pyOf x), fieldName := f.map fun n => .tok (tokOf n), annotations := a.map fun n => .tok (tokOf n) }]
  | .cont f a ty ns => { eventType := .containerStart, ionType := some ty.ty, fieldName := f.map fun n => .tok (tokOf n), annotations := a.map fun n => .tok (tokOf n) } :: (eventsOfAll ns ++ [endEvent])
/-- The same for several values. -/
def eventsOfAll : List Val → List IonEvent
  | [] => []
  | n :: ns => eventsOf n ++ eventsOfAll ns
end

/-- Symbols that writers take for the same. -/
def SameSym (a b : SymArg) : Prop := symbolKey a = symbolKey b ∧ truthyArg a = true ∧ truthyArg b = true

/-- Values of a type that writers take for the same, if those of other types than symbol are related by `P`. -/
def SameVal (P : IonType → PyVal → PyVal → Prop) (ty : Option IonType) (v w : PyVal) : Prop :=
  (ty = some .symbol ∧ ∃ a b, symArgOfValue v = .ok a ∧ symArgOfValue w = .ok b ∧ symbolKey a = symbolKey b) ∨
  ∃ t, t ≠ .symbol ∧ ty = some t ∧ P t v w

/-- One event instead of another. -/
structure Alike (P : IonType → PyVal → PyVal → Prop) (e c : IonEvent) : Prop where
  kind : e.eventType = c.eventType
  type : e.ionType = c.ionType
  field : (e.fieldName = none ∧ c.fieldName = none) ∨ ∃ a b, e.fieldName = some a ∧ c.fieldName = some b ∧ SameSym a b
  ann : List.Forall₂ (fun a b => symbolKey a = symbolKey b) e.annotations c.annotations
  value : (e.value = .ok none ∧ c.value = .ok none) ∨
    ∃ v w, e.value = .ok (some v) ∧ c.value = .ok (some w) ∧ SameVal P e.ionType v w

theorem forall₂_append {α β : Type} {R : α → β → Prop} {a c : List α} {b d : List β} (h : List.Forall₂ R a b) (h' : List.Forall₂ R c d) :
    List.Forall₂ R (a ++ c) (b ++ d) := by
  induction h with
  | nil => exact h'
  | cons h _ ih => exact .cons h ih

/-- A symbol given by its text, or the symbol `$0`. -/
def ByText : SymArg → Prop
  | .text _ => True
  | .tok k => k.text = none → k.sid = some 0

theorem key_tok {a : SymArg} {x : Option Text} (h : seenText a = some x) (hb : ByText a) :
    symbolKey a = symbolKey (.tok (tokOf x)) := by
  cases a with
  | text t => cases h; rfl
  | tok k =>
    obtain ⟨text, sid, loc⟩ := k
    simp only [seenText, Option.some.injEq] at h
    subst h
    cases text with
    | some t => rfl
    | none =>
      have : sid = some 0 := hb rfl
      subst this; rfl

theorem ann_alike : ∀ {ann : List SymArg} {a : List (Option Text)}, allSome seenText ann = some a → (∀ s ∈ ann, ByText s) →
    List.Forall₂ (fun a b => symbolKey a = symbolKey b) ann (a.map fun n => .tok (tokOf n)) := by
  intro ann
  induction ann with
  | nil => intro a h _; cases h; exact .nil
  | cons s ann ih =>
    intro a h hb
    simp only [allSome] at h
    split at h
    · rename_i x xs h1 h2
      cases h
      exact .cons (key_tok h1 (hb s (by simp))) (ih h2 fun s hs => hb s (by simp [hs]))
    · cases h

theorem field_alike {o : PyObj} {s : Bool} {key : Option SymArg} {f : Option (Option Text)} (h : Placed seenText o s key f)
    (hb : ∀ a, key = some a → ByText a) :
    (eventField (kindOf o) key s = none ∧ (f.map fun n => SymArg.tok (tokOf n)) = none) ∨
    ∃ a b, eventField (kindOf o) key s = some a ∧ (f.map fun n => SymArg.tok (tokOf n)) = some b ∧ SameSym a b := by
  unfold Placed at h
  cases s with
  | false =>
    simp only [Bool.false_eq_true, if_false] at h
    obtain ⟨rfl, rfl⟩ := h
    left
    cases kindOf o <;> exact ⟨rfl, rfl⟩
  | true =>
    simp only [if_true] at h
    obtain ⟨name, rfl, h⟩ := h
    right
    cases h with
    | text t h =>
      cases hk : kindOf o with
      | plain c =>
        refine ⟨_, _, rfl, rfl, rfl, ?_, rfl⟩
        rcases h with h | h
        · cases t with
          | nil => exact absurd rfl h
          | cons => rfl
        · exact absurd h (plain_not_ion hk)
      | ion ty ann => exact ⟨_, _, rfl, rfl, rfl, rfl, rfl⟩
    | token k name h =>
      have := key_tok h (hb _ rfl)
      cases hk : kindOf o <;> exact ⟨_, _, rfl, rfl, this, rfl, rfl⟩
    | unknown h =>
      cases hk : kindOf o with
      | plain c => exact absurd h (plain_not_ion hk)
      | ion ty ann => exact ⟨_, _, rfl, rfl, rfl, rfl, rfl⟩

/-- Values that `P` accepts instead of those in the objects. -/
def Accepts (P : IonType → PyVal → PyVal → Prop) (v : PyVal) : Prop :=
  ∀ ty x w, ty ≠ .symbol → denote (fun k => some k.text) ty (some v) = some x → pyOf x = some w → P ty v w

theorem scalar_alike {P : IonType → PyVal → PyVal → Prop} {ty : IonType} {v : PyVal} {x : Scalar (Option Text)}
    (h : scalarOf seenText ty v = some x) (hP : Accepts P v) (hb : ∀ a, asSymbol v = some a → ByText a) :
    x.ty = ty ∧ ∃ w, pyOf x = some w ∧ SameVal P (some ty) v w := by
  unfold scalarOf at h
  by_cases hs : ty = .symbol
  · subst hs
    simp only [if_true, Option.map_eq_some_iff, Option.bind_eq_some_iff] at h
    obtain ⟨y, ⟨a, h1, h2⟩, rfl⟩ := h
    refine ⟨rfl, _, rfl, .inl ⟨rfl, a, _, ?_, rfl, key_tok h2 (hb a h1)⟩⟩
    cases v <;> simp only [asSymbol, Option.some.injEq, reduceCtorEq] at h1 <;> subst h1 <;> rfl
  · simp only [hs, if_false] at h
    have hd : denote (fun k => some k.text) ty (some v) = some x := h
    have : x.ty = ty ∧ ∃ w, pyOf x = some w := by
      cases ty <;> cases v <;> simp only [denote, Option.some.injEq, reduceCtorEq] at hd <;> first
        | (subst hd; exact ⟨rfl, _, rfl⟩)
        | exact absurd rfl hs
    obtain ⟨h1, w, h2⟩ := this
    exact ⟨h1, w, h2, .inr ⟨ty, hs, rfl, hP ty x w hs hd h2⟩⟩

/-- What `dump` sends for an object: events like those for its Ion value. -/
theorem dump_alike (P : IonType → PyVal → PyVal → Prop) {b : Bool} {f : Option (Option Text)} {o : PyObj} {n : Val} (h : IsValue b seenText f o n) :
    ∀ key s d, Placed seenText o s key f → (∀ a, key = some a → ByText a) → (∀ a ∈ symbolsIn o, ByText a) → (∀ v ∈ valuesIn o, Accepts P v) →
      ∃ evs, dumpObj b key s d o = (evs, none) ∧ List.Forall₂ (Alike P) evs (eventsOf n) := by
  have hend : Alike P endEvent endEvent := ⟨rfl, rfl, .inl ⟨rfl, rfl⟩, .nil, .inl ⟨rfl, rfl⟩⟩
  refine IsValue.rec (tupleAsSexp := b) (sym := seenText)
    (motive_1 := fun f o n _ => ∀ key s d, Placed seenText o s key f → (∀ a, key = some a → ByText a) → (∀ a ∈ symbolsIn o, ByText a) → (∀ v ∈ valuesIn o, Accepts P v) →
      ∃ evs, dumpObj b key s d o = (evs, none) ∧ List.Forall₂ (Alike P) evs (eventsOf n))
    (motive_2 := fun os ns _ => ∀ d, (∀ a ∈ symbolsInAll os, ByText a) → (∀ v ∈ valuesInAll os, Accepts P v) →
      ∃ evs, dumpElems b d os = (evs, none) ∧ List.Forall₂ (Alike P) evs (eventsOfAll ns))
    (motive_3 := fun items ns _ => ∀ d, (∀ a ∈ symbolsInItems items, ByText a) → (∀ v ∈ valuesInItems items, Accepts P v) →
      ∃ evs, dumpItems b d items = (evs, none) ∧ List.Forall₂ (Alike P) evs (eventsOfAll ns))
    ?_ ?_ ?_ ?_ ?_ ?_ ?_ ?_ ?_ h
  · intro f key s d hp hk _ _
    refine ⟨_, rfl, .cons ?_ .nil⟩
    rw [objEvent_eq]
    exact ⟨rfl, rfl, field_alike hp hk, .nil, .inl ⟨rfl, rfl⟩⟩
  · intro f ty ann a ha key s d hp hk hs _
    refine ⟨_, rfl, .cons ?_ .nil⟩
    rw [objEvent_eq]
    exact ⟨rfl, rfl, field_alike hp hk, ann_alike ha (by simpa [symbolsIn, kindOf, eventAnn] using hs), .inl ⟨rfl, rfl⟩⟩
  · intro f k v ty ann a x hk ha hx key s d hp hkey hs hv
    obtain ⟨h1, h2⟩ := typed_type hk
    have hc : ty.isContainer = false := by
      cases ty <;> first | rfl | (cases v <;> simp [scalarOf, denote] at hx)
    have hs' : (∀ a ∈ ann, ByText a) ∧ ∀ a ∈ (asSymbol v).toList, ByText a := by
      cases hk with
      | plain c ty h => exact ⟨by simp, by simpa [symbolsIn] using hs⟩
      | ion ty ann => exact ⟨fun a ha => hs a (by simp [symbolsIn, ha]), fun a ha => hs a (by simp only [symbolsIn, List.mem_append]; exact .inr ha)⟩
    obtain ⟨h3, w, h4, h5⟩ := scalar_alike hx (hv v (by simp [valuesIn])) (fun a ha => hs'.2 a (by simp [ha]))
    refine ⟨[objEvent k .scalar (some ty) (some v) key s d], by simp only [dumpObj, h1, hc, Bool.false_eq_true, if_false], .cons ?_ .nil⟩
    rw [objEvent_eq]
    refine ⟨rfl, by rw [h3], field_alike (o := .scalar k v) hp hkey, by simp only; rw [h2]; exact ann_alike ha hs'.1, .inr ⟨v, w, rfl, by simp only; rw [h4], h5⟩⟩
  · intro f k elems ty ann a ns hk hty ha _ ih key s d hp hkey hsy hv
    obtain ⟨h1, h2⟩ := typed_type hk
    have hs : ¬ ty.ty = IonType.struct := by cases ty <;> simp [CType.ty] at hty ⊢
    have hs' : (∀ a ∈ ann, ByText a) ∧ ∀ a ∈ symbolsInAll elems, ByText a := by
      cases hk with
      | plain c ty h => exact ⟨by simp, by simpa [symbolsIn] using hsy⟩
      | ion ty ann => exact ⟨fun a ha => hsy a (by simp [symbolsIn, ha]), fun a ha => hsy a (by simp only [symbolsIn, List.mem_append]; exact .inr ha)⟩
    obtain ⟨evs, e1, e2⟩ := ih (d + 1) hs'.2 (by simpa [valuesIn] using hv)
    refine ⟨objEvent k .containerStart (some ty.ty) none key s d :: (evs ++ [endEvent]), by simp only [dumpObj, h1, hs, if_false, ctype_container, if_true, e1, andThen_ok, List.cons_append, List.nil_append], .cons ?_ (forall₂_append e2 (.cons hend .nil))⟩
    rw [objEvent_eq]
    exact ⟨rfl, rfl, field_alike (o := .seq k elems) hp hkey, by simp only; rw [h2]; exact ann_alike ha hs'.1, .inl ⟨rfl, rfl⟩⟩
  · intro f k items ann a ns hk ha _ ih key s d hp hkey hsy hv
    obtain ⟨h1, h2⟩ := typed_type hk
    have hs' : (∀ a ∈ ann, ByText a) ∧ ∀ a ∈ symbolsInItems items, ByText a := by
      cases hk with
      | plain c ty h => exact ⟨by simp, by simpa [symbolsIn] using hsy⟩
      | ion ty ann => exact ⟨fun a ha => hsy a (by simp [symbolsIn, ha]), fun a ha => hsy a (by simp only [symbolsIn, List.mem_append]; exact .inr ha)⟩
    obtain ⟨evs, e1, e2⟩ := ih (d + 1) hs'.2 (by simpa [valuesIn] using hv)
    refine ⟨objEvent k .containerStart (some .struct) none key s d :: (evs ++ [endEvent]), by simp only [dumpObj, h1, if_true, e1, andThen_ok, List.cons_append, List.nil_append], .cons ?_ (forall₂_append e2 (.cons hend .nil))⟩
    rw [objEvent_eq]
    exact ⟨rfl, rfl, field_alike (o := .dict k items) hp hkey, by simp only; rw [h2]; exact ann_alike ha hs'.1, .inl ⟨rfl, rfl⟩⟩
  · intro d _ _
    exact ⟨[], rfl, .nil⟩
  · intro o n os ns _ _ ih1 ih2 d hs hv
    simp only [symbolsInAll, valuesInAll, List.mem_append] at hs hv
    obtain ⟨evs1, e1, e2⟩ := ih1 none false d (by simp [Placed]) (by simp) (fun a ha => hs a (.inl ha)) (fun v h => hv v (.inl h))
    obtain ⟨evs2, f1, f2⟩ := ih2 d (fun a ha => hs a (.inr ha)) (fun v h => hv v (.inr h))
    exact ⟨_, by simp only [dumpElems, e1, f1, andThen_ok], forall₂_append e2 f2⟩
  · intro d _ _
    exact ⟨[], rfl, .nil⟩
  · intro key name o n items ns hname _ _ ih1 ih2 d hs hv
    simp only [symbolsInItems, valuesInItems, List.mem_append] at hs hv
    obtain ⟨evs1, e1, e2⟩ := ih1 key true d (by simp [Placed, hname]) (fun a ha => hs a (.inl (.inl (by simp [ha]))))
      (fun a ha => hs a (.inl (.inr ha))) (fun v h => hv v (.inl h))
    obtain ⟨evs2, f1, f2⟩ := ih2 d (fun a ha => hs a (.inr ha)) (fun v h => hv v (.inr h))
    exact ⟨_, by simp only [dumpItems, e1, f1, andThen_ok], forall₂_append e2 f2⟩

/-- The same for the values at the top level. -/
theorem dump_all_alike (P : IonType → PyVal → PyVal → Prop) {b : Bool} (d : Nat) {os : List PyObj} : ∀ {ns : List Val}, AreValues b seenText os ns →
    (∀ a ∈ symbolsInAll os, ByText a) → (∀ v ∈ valuesInAll os, Accepts P v) →
    ∃ evs, dumpElems b d os = (evs, none) ∧ List.Forall₂ (Alike P) evs (eventsOfAll ns) := by
  induction os with
  | nil => intro ns h _ _; cases h; exact ⟨[], rfl, .nil⟩
  | cons o os ih =>
    intro ns h hs hv
    cases h with
    | cons _ n _ ns h1 h2 =>
      simp only [symbolsInAll, valuesInAll, List.mem_append] at hs hv
      obtain ⟨evs1, e1, e2⟩ := dump_alike P h1 none false d (by simp [Placed]) (by simp) (fun a ha => hs a (.inl ha)) (fun v h => hv v (.inl h))
      obtain ⟨evs2, f1, f2⟩ := ih h2 (fun a ha => hs a (.inr ha)) (fun v h => hv v (.inr h))
      exact ⟨_, by simp only [dumpElems, e1, f1, andThen_ok], forall₂_append e2 f2⟩

/-! ## The binary writer -/

/-- The same bytes. -/
def SameBytes (ty : IonType) (v w : PyVal) : Prop := RawWriter.serializeValue ty v = RawWriter.serializeValue ty w

theorem internSymbol_key {a b : SymArg} (h : symbolKey a = symbolKey b) (s : SymState) : internSymbol s a = internSymbol s b := by
  unfold internSymbol
  rw [h]

theorem internAll_key {as bs : List SymArg} (h : List.Forall₂ (fun a b => symbolKey a = symbolKey b) as bs) :
    ∀ s, internAll s as = internAll s bs := by
  induction h with
  | nil => intro s; rfl
  | cons h _ ih =>
    intro s
    simp only [internAll, internSymbol_key h, ih]

theorem internField_key {e c : IonEvent}
    (h : (e.fieldName = none ∧ c.fieldName = none) ∨ ∃ a b, e.fieldName = some a ∧ c.fieldName = some b ∧ SameSym a b) (s : SymState) : internField s e.fieldName = internField s c.fieldName := by
  rcases h with ⟨h1, h2⟩ | ⟨a, b, h1, h2, h3, h4, h5⟩
  · rw [h1, h2]
  · rw [h1, h2]
    simp only [internField, internSymbol_key h3, h4, h5, if_true]

/-- Events that the raw writer takes for the same. -/
structure RawAlike (e c : IonEvent) : Prop where
  kind : e.eventType = c.eventType
  type : e.ionType = c.ionType
  field : e.fieldName = c.fieldName
  ann : e.annotations = c.annotations
  bytes : RawWriter.serializeScalar e = RawWriter.serializeScalar c

theorem handle_alike {e c : IonEvent} (h : RawAlike e c) (s : RawWriter.State) : RawWriter.handle s e = RawWriter.handle s c := by
  unfold RawWriter.handle RawWriter.prologue
  rw [h.kind, h.type, h.field, h.ann, h.bytes]

theorem internSymbols_alike {e c : IonEvent} (h : Alike SameBytes e c) (s : SymState) :
    (∃ err, internSymbols s e = .error err ∧ internSymbols s c = .error err) ∨
    ∃ s' e' c', internSymbols s e = .ok (s', e') ∧ internSymbols s c = .ok (s', c') ∧ RawAlike e' c' := by
  unfold internSymbols
  rw [← internField_key h.field]
  cases hf : internField s e.fieldName with
  | error err => exact .inl ⟨err, rfl, rfl⟩
  | ok p =>
    obtain ⟨s1, f⟩ := p
    simp only [bind, Except.bind]
    rw [← internAll_key h.ann]
    cases ha : internAll s1 e.annotations with
    | error err => exact .inl ⟨err, rfl, rfl⟩
    | ok q =>
      obtain ⟨s2, a⟩ := q
      simp only [← h.type]
      rcases h.value with ⟨h1, h2⟩ | ⟨v, w, h1, h2, h3⟩
      · right
        by_cases hs : e.ionType = some .symbol
        · simp only [hs, if_true, h1, h2, pure, Except.pure]
          exact ⟨_, _, _, rfl, rfl, h.kind, rfl, rfl, rfl, by simp [RawWriter.serializeScalar, h1, h2]⟩
        · simp only [hs, if_false, pure, Except.pure]
          exact ⟨_, _, _, rfl, rfl, h.kind, rfl, rfl, rfl, by simp [RawWriter.serializeScalar, h1, h2]⟩
      · rcases h3 with ⟨hs, x, y, h4, h5, h6⟩ | ⟨t, hs, ht, h4⟩
        · simp only [hs, if_true, h1, h2, h4, h5, internSymbol_key h6]
          cases internSymbol s2 y with
          | error err => exact .inl ⟨err, rfl, rfl⟩
          | ok r => exact .inr ⟨_, _, _, rfl, rfl, h.kind, rfl, rfl, rfl, by simp [RawWriter.serializeScalar]⟩
        · right
          have hs' : ¬ e.ionType = some .symbol := by rw [ht]; simpa using hs
          simp only [hs', if_false, pure, Except.pure]
          refine ⟨_, _, _, rfl, rfl, h.kind, rfl, rfl, rfl, ?_⟩
          simp only [SameBytes] at h4
          simp only [RawWriter.serializeScalar, h1, h2, ht, bind, Except.bind, h4]

theorem step_alike (imports : Option (List SymbolTable)) {e c : IonEvent} (h : Alike SameBytes e c) (s : State) : ManagedWriter.step imports s e = ManagedWriter.step imports s c := by
  have hw : writeValue imports s e = writeValue imports s c := by
    unfold writeValue
    cases (if s.hasWritten then .ok s.sym else startLst imports s.sym : Except PyErr SymState) with
    | error err => rfl
    | ok sym =>
      simp only [bind, Except.bind]
      rcases internSymbols_alike h sym with ⟨err, h1, h2⟩ | ⟨s', e', c', h1, h2, h3⟩
      · rw [h1, h2]
      · rw [h1, h2]
        simp only [handle_alike h3]
  unfold ManagedWriter.step
  rw [h.kind, hw]

theorem run_alike {S : Type} {step : S → IonEvent → WriterStep S} {R : IonEvent → IonEvent → Prop} (hstep : ∀ e c, R e c → ∀ s, step s e = step s c)
    {evs evs' : List IonEvent} (h : List.Forall₂ R evs evs') : ∀ s, runEvents step s evs = runEvents step s evs' := by
  induction h with
  | nil => intro s; rfl
  | cons h _ ih =>
    intro s
    simp only [runEvents, hstep _ _ h s, ih]

/-! ## The text writer -/

/-- The same text. -/
def SameText (F : FloatText) (ty : IonType) (v w : PyVal) : Prop := TextWriter.serializeValue F ty v = TextWriter.serializeValue F ty w

theorem symArg_text {a b : SymArg} (h : symbolKey a = symbolKey b) (suf : List Nat) : TextWriter.serializeSymArg a suf = TextWriter.serializeSymArg b suf := by
  have key : ∀ a : SymArg, TextWriter.serializeSymArg a suf = match symbolKey a with
      | .error err => .error err
      | .ok (_, some t) => TextWriter.symbolText t suf
      | .ok (.sid n, none) => .ok (36 :: natDigits n.toNat ++ suf)
      | .ok (.text _, none) => .error .typeError := by
    intro a
    cases a with
    | text t => rfl
    | tok k =>
      obtain ⟨t, n, l⟩ := k
      cases t <;> cases n <;> rfl
  rw [key, key, h]

theorem annotations_text {as bs : List SymArg} (h : List.Forall₂ (fun a b => symbolKey a = symbolKey b) as bs) :
    TextWriter.annotationChunks as = TextWriter.annotationChunks bs := by
  induction h with
  | nil => rfl
  | cons h _ ih => simp only [TextWriter.annotationChunks, symArg_text h, ih]

theorem field_text {e c : IonEvent} (h : (e.fieldName = none ∧ c.fieldName = none) ∨ ∃ a b, e.fieldName = some a ∧ c.fieldName = some b ∧ SameSym a b)
    (hk : e.eventType = c.eventType) (pretty : Bool) (s : TextWriter.State) : TextWriter.fieldChunks pretty s e = TextWriter.fieldChunks pretty s c := by
  unfold TextWriter.fieldChunks
  rw [hk]
  rcases h with ⟨h1, h2⟩ | ⟨a, b, h1, h2, h3, _⟩
  · rw [h1, h2]
  · rw [h1, h2]
    simp only [symArg_text h3]

theorem scalar_text {F : FloatText} {e c : IonEvent} (h : Alike (SameText F) e c) : TextWriter.serializeScalar F e = TextWriter.serializeScalar F c := by
  unfold TextWriter.serializeScalar
  rw [← h.type]
  rcases h.value with ⟨h1, h2⟩ | ⟨v, w, h1, h2, h3⟩
  · rw [h1, h2]
  · rw [h1, h2]
    rcases h3 with ⟨hs, x, y, h4, h5, h6⟩ | ⟨t, hs, ht, h4⟩
    · simp only [hs]
      have key : ∀ {v : PyVal} {x : SymArg}, symArgOfValue v = .ok x → TextWriter.serializeValue F .symbol v = TextWriter.serializeSymArg x [] := by
        intro v x h
        cases v <;> simp only [symArgOfValue, Except.ok.injEq, reduceCtorEq] at h <;> subst h <;> rfl
      rw [key h4, key h5, symArg_text h6]
    · simp only [ht]
      exact h4

theorem text_step_alike (F : FloatText) (indent : Option (List Nat)) {e c : IonEvent} (h : Alike (SameText F) e c) (s : TextWriter.State) :
    TextWriter.step F indent s e = TextWriter.step F indent s c := by
  have h1 : TextWriter.delimiterChunks indent.isSome s e = TextWriter.delimiterChunks indent.isSome s c := by
    unfold TextWriter.delimiterChunks; rw [h.kind]
  have h2 : TextWriter.indentChunks indent s e = TextWriter.indentChunks indent s c := by
    unfold TextWriter.indentChunks; rw [h.kind]
  have h3 : TextWriter.finish F s e = TextWriter.finish F s c := by
    unfold TextWriter.finish; rw [h.kind, h.type, scalar_text h]
  unfold TextWriter.step
  rw [h1, h2, h3, field_text h.field h.kind, h.kind, annotations_text h.ann]

theorem text_run_alike {F : FloatText} {indent : Option (List Nat)} {evs evs' : List IonEvent} (h : List.Forall₂ (Alike (SameText F)) evs evs') :
    ∀ s, TextWriter.runText F indent s evs = TextWriter.runText F indent s evs' := by
  induction h with
  | nil => intro s; rfl
  | cons h _ ih =>
    intro s
    simp only [TextWriter.runText, text_step_alike F indent h s, ih]

theorem decFixed_zero (w : Nat) : decFixed w 0 = List.replicate w 48 := by
  induction w with
  | zero => rfl
  | succ w ih => rw [decFixed, Nat.zero_div, ih, List.replicate_succ']

theorem decFixed_pad : ∀ (w n : Nat), 0 < w → n < 10 ^ w → decFixed w n = List.replicate (w - (natDigits n).length) 48 ++ natDigits n := by
  intro w
  induction w with
  | zero => intro n h; omega
  | succ w ih =>
    intro n _ hn
    by_cases h : n < 10
    · rw [natDigits, if_pos h, decFixed, Nat.div_eq_of_lt h, decFixed_zero, Nat.mod_eq_of_lt h]
      rfl
    · have hw : 0 < w := by
        rcases w with _ | w
        · simp at hn; omega
        · omega
      have hdiv : n / 10 < 10 ^ w := by
        rw [Nat.pow_succ] at hn
        omega
      rw [natDigits, if_neg h, decFixed, ih _ hw hdiv, List.length_append, List.append_assoc]
      simp only [List.length_cons, List.length_nil, Nat.zero_add]
      congr 2
      omega

/-- The text of a timestamp is that of its Ion value. -/
theorem datetime_value (v : Scalars.TimeVal) (h : match v with | .ts t => t.precision ≠ none | .dt d => d.micro < 1000000) :
    TextWriter.datetimeStr (.ts (timeValue v)) = TextWriter.datetimeStr v := by
  cases v with
  | ts t =>
    obtain ⟨dt, prec, fp, frac⟩ := t
    cases prec with
    | none => exact absurd rfl h
    | some p => cases p <;> rfl
  | dt d =>
    have hf : TextWriter.fractionStr ⟨false, d.micro, -6⟩ = 46 :: decFixed 6 d.micro := by
      have := decFixed_pad 6 d.micro (by omega) h
      have hn : (-(-6 : Int) - ((natDigits d.micro).length : Int)).toNat = 6 - (natDigits d.micro).length := by omega
      unfold TextWriter.fractionStr
      simp only
      rw [if_neg (by simp), this, hn]
    simp only [timeValue, TextWriter.datetimeStr, Scalars.TimeVal.dateTime, hf]

end Ion.Simple.SameOutput

namespace Ion.Simple.Spec
open Ion Ion.Spec Ion.Simple

/-- The symbols of an object are given by their texts, or as `$0`: no token stands for a symbol by its ID only. -/
def SymbolsByText (os : List PyObj) : Prop := ∀ a ∈ symbolsInAll os, SameOutput.ByText a

/-- Timestamps as the constructors make them (C08), or in the form in which `load` returns them. -/
def OrdinaryTimes (os : List PyObj) : Prop :=
  ∀ v ∈ valuesInAll os, ∀ tv, v = .timestamp tv → Scalars.RegularTime tv ∨ tv = .ts (timeValue tv)

/-- For text, no `Timestamp` without precision. -/
def TextTimes (os : List PyObj) : Prop :=
  ∀ v ∈ valuesInAll os, ∀ tv, v = .timestamp tv → match tv with | .ts t => t.precision ≠ none | .dt d => d.Valid

/-- All symbols in the values have a known text. -/
def AllKnown (values : List Val) : Prop := Node.HoldsAll (fun _ => True) (fun _ => True) values

end Ion.Simple.Spec

namespace Ion.Simple
open Ion Ion.Spec Ion.Simple.Spec Ion.ManagedWriter Ion.Simple.SameOutput

theorem accepts_of_time {P : IonType → PyVal → PyVal → Prop} {v : PyVal} (hr : ∀ ty w, P ty w w)
    (hb : ∀ i, P .bool (.int i) (.bool (decide (i ≠ 0)))) (ht : ∀ tv, v = .timestamp tv → P .timestamp v (.timestamp (.ts (timeValue tv)))) :
    Accepts P v := by
  intro ty x w hs hd hw
  cases ty <;> cases v <;> simp only [denote, Option.some.injEq, reduceCtorEq] at hd <;>
    first
    | exact absurd rfl hs
    | (subst hd; simp only [pyOf, Option.some.injEq] at hw; subst hw; first | exact hr _ _ | exact hb _ | exact ht _ rfl)

theorem accepts_bytes {os : List PyObj} (h : OrdinaryTimes os) : ∀ v ∈ valuesInAll os, Accepts SameBytes v := by
  intro v hv
  refine accepts_of_time (fun _ _ => rfl) (fun i => rfl) fun tv htv => ?_
  subst htv
  rcases h _ hv tv rfl with h | h
  · simp only [SameBytes, RawWriter.serializeValue, Scalars.serializeTimestamp, Scalars.timestampBody_value tv h]
  · rw [← h]; rfl

theorem accepts_text {F : FloatText} {os : List PyObj} (h : TextTimes os) : ∀ v ∈ valuesInAll os, Accepts (SameText F) v := by
  intro v hv
  refine accepts_of_time (fun _ _ => rfl) (fun i => rfl) fun tv htv => ?_
  subst htv
  have := h _ hv tv rfl
  simp only [SameText, TextWriter.serializeValue]
  refine (datetime_value tv ?_).symm
  cases tv with
  | ts t => exact this
  | dt d => exact this.2.2.2.2.2.2.2.2.2

/-- **C67** (binary).  Two Python objects (of whatever classes, with the options that go with them) that stand for the same Ion
values, with symbols given by their texts, are dumped as the same bytes, chunk by chunk, with the same outcome. -/
theorem C67_same_values_same_bytes (imports : Option (List SymbolTable)) (asStream₁ asStream₂ asSexp₁ asSexp₂ : Bool) (o₁ o₂ : PyObj) (values : List Val)
    (h₁ : AreValues asSexp₁ seenText (topLevel asStream₁ o₁) values) (h₂ : AreValues asSexp₂ seenText (topLevel asStream₂ o₂) values)
    (s₁ : SymbolsByText (topLevel asStream₁ o₁)) (s₂ : SymbolsByText (topLevel asStream₂ o₂))
    (t₁ : OrdinaryTimes (topLevel asStream₁ o₁)) (t₂ : OrdinaryTimes (topLevel asStream₂ o₂)) :
    dump imports asStream₁ asSexp₁ o₁ = dump imports asStream₂ asSexp₂ o₂ ∧ dumps imports asStream₁ asSexp₁ o₁ = dumps imports asStream₂ asSexp₂ o₂ := by
  obtain ⟨evs₁, e1, e2⟩ := dump_all_alike SameBytes 0 h₁ s₁ (accepts_bytes t₁)
  obtain ⟨evs₂, f1, f2⟩ := dump_all_alike SameBytes 0 h₂ s₂ (accepts_bytes t₂)
  have hd : dump imports asStream₁ asSexp₁ o₁ = dump imports asStream₂ asSexp₂ o₂ := by
    unfold dump feed
    rw [e1, f1, andThen_ok, andThen_ok]
    simp only [RawWriter.runEvents_append, run_alike (R := Alike SameBytes) (fun e c h s => step_alike imports h s) e2, run_alike (R := Alike SameBytes) (fun e c h s => step_alike imports h s) f2]
  refine ⟨hd, ?_⟩
  unfold dumps
  rw [hd]

/-- **C67** (text).  The same for text, whatever the indent. -/
theorem C67_same_values_same_text (F : FloatText) (indent : Option Text) (omitVersionMarker asStream₁ asStream₂ asSexp₁ asSexp₂ : Bool) (o₁ o₂ : PyObj) (values : List Val)
    (h₁ : AreValues asSexp₁ seenText (topLevel asStream₁ o₁) values) (h₂ : AreValues asSexp₂ seenText (topLevel asStream₂ o₂) values)
    (s₁ : SymbolsByText (topLevel asStream₁ o₁)) (s₂ : SymbolsByText (topLevel asStream₂ o₂))
    (t₁ : TextTimes (topLevel asStream₁ o₁)) (t₂ : TextTimes (topLevel asStream₂ o₂)) :
    dumpText F indent omitVersionMarker asStream₁ asSexp₁ o₁ = dumpText F indent omitVersionMarker asStream₂ asSexp₂ o₂ ∧
    dumpsText F indent omitVersionMarker asStream₁ asSexp₁ o₁ = dumpsText F indent omitVersionMarker asStream₂ asSexp₂ o₂ := by
  obtain ⟨evs₁, e1, e2⟩ := dump_all_alike (SameText F) 0 h₁ s₁ (accepts_text t₁)
  obtain ⟨evs₂, f1, f2⟩ := dump_all_alike (SameText F) 0 h₂ s₂ (accepts_text t₂)
  have hd : dumpText F indent omitVersionMarker asStream₁ asSexp₁ o₁ = dumpText F indent omitVersionMarker asStream₂ asSexp₂ o₂ := by
    have hr : ∀ ind s, TextWriter.runText F ind s evs₁ = TextWriter.runText F ind s evs₂ := fun ind s => by
      rw [text_run_alike e2, text_run_alike f2]
    unfold dumpText
    rw [e1, f1, andThen_ok, andThen_ok]
    cases omitVersionMarker with
    | true => simp only [if_true, List.nil_append, hr]
    | false => simp only [Bool.false_eq_true, if_false, List.cons_append, List.nil_append, TextWriter.runText, hr]
  refine ⟨hd, ?_⟩
  unfold dumpsText
  rw [hd]

/-! ## Loaded objects -/

/-- Objects that mean values with known symbols. -/
theorem mean_known {objs : List PyObj} {values : List Val} (hm : Mean objs values) (hk : AllKnown values) :
    ∃ ns, KeptAll values ns ∧ (∀ b, AreValues b seenText objs ns) ∧ SymbolsByText objs ∧ OrdinaryTimes objs ∧ TextTimes objs := by
  obtain ⟨ns, h1, h2⟩ := hm.2 false
  obtain ⟨-, i2, i3⟩ := known_all (t0 := systemTable) objs ((nativeAll_iff _).2 hm.1) h1 (holdsAll_kept h2 hk)
  have known : ∀ a : SymArg, (∃ t, seenText a = some (some t) ∧ True) → ByText a := by
    rintro a ⟨t, ht, _⟩
    cases a with
    | text u => trivial
    | tok k =>
      simp only [seenText, Option.some.injEq] at ht
      intro hn
      rw [ht] at hn; cases hn
  have times : ∀ v ∈ valuesInAll objs, ∀ tv, v = .timestamp tv → tv = .ts (timeValue tv) := by
    rintro v hv tv rfl
    obtain ⟨p, hp, hpv⟩ := values_scalarsAll objs _ hv
    obtain ⟨ty, ann, x, -, hn, hx, -⟩ := i3 p hp
    rw [hpv] at hn hx
    cases ty <;> simp [scalarOf, denote, asSymbol, nativeScalar] at hx hn
    exact hn
  refine ⟨ns, h2, fun b => ?_, ?_, fun v hv tv h => .inr (times v hv tv h), ?_⟩
  · obtain ⟨ns', h1', h2'⟩ := hm.2 b
    rwa [keptAll_fun (fun x _ => kept_fun x) h2 h2']
  · intro a ha
    rcases symbols_splitAll objs a ha with h | ⟨p, hp1, hp2⟩
    · exact known a (i2 a h)
    · obtain ⟨ty, ann, x, -, hn, hx, -, hsym⟩ := i3 p hp1
      by_cases hs : ty = .symbol
      · subst hs
        simp only [scalarOf, if_true, hp2, Option.bind_some, Option.map_eq_some_iff] at hx
        obtain ⟨y, h3, rfl⟩ := hx
        obtain ⟨t, rfl, -⟩ := hsym y rfl
        exact known a ⟨t, h3, trivial⟩
      · obtain ⟨k, v⟩ := p
        simp only at hp2 hx
        cases v <;> simp only [asSymbol, Option.some.injEq, reduceCtorEq] at hp2
        · simp only [scalarOf, hs, if_false] at hx
          cases ty <;> first | exact absurd rfl hs | cases hx
        · subst hp2; trivial
  · rintro v hv tv rfl
    have := times _ hv tv rfl
    rw [this]
    simp only
    cases tv with
    | ts t => simp only [timeValue]; split <;> simp
    | dt d => simp [timeValue]

/-- **C67** (loaded values).  Two lists of loaded objects that mean the same values, from whatever documents, are written as the same
bytes and as the same text: `load` followed by `dump` gives one encoding for the values of a document. -/
theorem C67_loaded_same_output (objs₁ objs₂ : List PyObj) (values : List Val) (h₁ : Mean objs₁ values) (h₂ : Mean objs₂ values) (hk : AllKnown values)
    (asSexp₁ asSexp₂ : Bool) (k₁ k₂ : Kind) :
    (∀ imports, dumps imports true asSexp₁ (.seq k₁ objs₁) = dumps imports true asSexp₂ (.seq k₂ objs₂)) ∧
    ∀ F indent noMarker, dumpsText F indent noMarker true asSexp₁ (.seq k₁ objs₁) = dumpsText F indent noMarker true asSexp₂ (.seq k₂ objs₂) := by
  obtain ⟨ns, a1, a2, a3, a4, a5⟩ := mean_known h₁ hk
  obtain ⟨ns', b1, b2, b3, b4, b5⟩ := mean_known h₂ hk
  obtain rfl := keptAll_fun (fun x _ => kept_fun x) a1 b1
  exact ⟨fun imports => (C67_same_values_same_bytes imports true true asSexp₁ asSexp₂ (.seq k₁ objs₁) (.seq k₂ objs₂) ns (a2 _) (b2 _) a3 b3 a4 b4).2,
    fun F indent noMarker => (C67_same_values_same_text F indent noMarker true true asSexp₁ asSexp₂ (.seq k₁ objs₁) (.seq k₂ objs₂) ns (a2 _) (b2 _) a3 b3 a5 b5).2⟩


mutual
theorem hold_weaken {P : Scalar (Option Text) → Prop} {Q : Text → Prop} : ∀ (n : Val), Node.Holds P Q n → Node.Holds (fun _ => True) (fun _ => True) n
  | .scalar f a x, h => by
    simp only [Node.Holds] at h ⊢
    exact ⟨fun s hs => (h.1 s hs).imp fun _ h => ⟨h.1, trivial⟩, fun s hs => (h.2.1 s hs).imp fun _ h => ⟨h.1, trivial⟩, trivial,
      fun s hs => (h.2.2.2 s hs).imp fun _ h => ⟨h.1, trivial⟩⟩
  | .cont f a ty ns, h => by
    simp only [Node.Holds] at h ⊢
    exact ⟨fun s hs => (h.1 s hs).imp fun _ h => ⟨h.1, trivial⟩, fun s hs => (h.2.1 s hs).imp fun _ h => ⟨h.1, trivial⟩, holds_weaken h.2.2⟩
theorem holds_weaken {P : Scalar (Option Text) → Prop} {Q : Text → Prop} : ∀ {ns : List Val}, Node.HoldsAll P Q ns → Node.HoldsAll (fun _ => True) (fun _ => True) ns
  | [], _ => trivial
  | n :: ns, h => ⟨hold_weaken n h.1, holds_weaken h.2⟩
end

/-- **C67** (rewriting).  Loaded objects whose values binary can express: what `dump` writes is what is written again, byte for byte,
after it has been loaded: `dump` after `load` changes nothing any more. -/
theorem C67_rewriting_is_stable (objs : List PyObj) (values : List Val) (hm : Mean objs values) (hb : InBinary values) (hu : ∀ n ∈ values, ¬ SystemLike n)
    (asSexp₁ asSexp₂ : Bool) (k₁ k₂ : Kind) :
    ∃ doc, dumps none true asSexp₁ (.seq k₁ objs) = .ok doc ∧ ∃ objs', loadsBinary [] false doc = some (.ok objs') ∧
      dumps none true asSexp₂ (.seq k₂ objs') = .ok doc := by
  obtain ⟨doc, h1, objs', h2, _, h3, _⟩ := dump_mean_binary hm hb hu asSexp₁ k₁
  refine ⟨doc, h1, objs', h3, ?_⟩
  rw [← h1]
  exact (C67_loaded_same_output objs' objs values h2 hm (holds_weaken hb) asSexp₂ asSexp₁ k₂ k₁).1 none

/-- **C67** (reformatting).  The same for text, with any indent. -/
theorem C67_reformatting_is_stable (F : FloatText) (hF : TextSpec.Faithful F) (indent : Option Text) (hi : ∀ t, indent = some t → TextSpec.IsBlank t)
    (objs : List PyObj) (values : List Val) (hm : Mean objs values) (ht : InText values) (hu : ∀ n ∈ values, ¬ SystemLike n)
    (omitVersionMarker asSexp₁ asSexp₂ : Bool) (k₁ k₂ : Kind) (catalog : Catalog) (hcat : Catalog.Registered catalog) :
    ∃ t, dumpsText F indent omitVersionMarker true asSexp₁ (.seq k₁ objs) = .ok t ∧ ∃ objs', LoadsAs F catalog t objs' ∧
      dumpsText F indent omitVersionMarker true asSexp₂ (.seq k₂ objs') = .ok t := by
  obtain ⟨t, h1, objs', h2, _, h3⟩ := dump_mean_text hm ht hu F hF indent hi omitVersionMarker asSexp₁ k₁ catalog hcat
  refine ⟨t, h1, objs', h3, ?_⟩
  rw [← h1]
  exact (C67_loaded_same_output objs' objs values h2 hm (holds_weaken ht.1) asSexp₂ asSexp₁ k₂ k₁).2 F indent omitVersionMarker

/-- **C67** (through text and back).  Binary data that `dump` has written for loaded objects, loaded, written as text with any indent,
loaded and written as binary data again: the same bytes. -/
theorem C67_through_text (F : FloatText) (hF : TextSpec.Faithful F) (indent : Option Text) (hi : ∀ t, indent = some t → TextSpec.IsBlank t)
    (objs : List PyObj) (values : List Val) (hm : Mean objs values) (hb : InBinary values) (ht : InText values) (hu : ∀ n ∈ values, ¬ SystemLike n)
    (omitVersionMarker asSexp : Bool) (k : Kind) :
    ∃ doc, dumps none true asSexp (.seq k objs) = .ok doc ∧ ∃ objs₁, loadsBinary [] false doc = some (.ok objs₁) ∧
      ∃ t, dumpsText F indent omitVersionMarker true asSexp (.seq k objs₁) = .ok t ∧ ∃ objs₂, LoadsAs F [] t objs₂ ∧
        dumps none true asSexp (.seq k objs₂) = .ok doc := by
  obtain ⟨doc, h1, objs₁, h2, _, h3, _⟩ := dump_mean_binary hm hb hu asSexp k
  obtain ⟨t, h4, objs₂, h5, _, h6⟩ := dump_mean_text h2 ht hu F hF indent hi omitVersionMarker asSexp k [] ManagedReader.registered_empty
  refine ⟨doc, h1, objs₁, h3, t, h4, objs₂, h6, ?_⟩
  rw [← h1]
  exact (C67_loaded_same_output objs₂ objs values h5 hm (holds_weaken hb) asSexp asSexp k k).1 none

/-! ## A value without repeated fields -/

theorem grouped_unique {xs : List Val} (hf : ∀ x ∈ xs, x.field.isSome) (hn : (xs.map Node.field).Nodup) : grouped xs = xs := by
  induction xs with
  | nil => rfl
  | cons x xs ih =>
    obtain ⟨n, hxn⟩ := Option.isSome_iff_exists.1 (hf x (by simp))
    simp only [List.map_cons, List.nodup_cons] at hn
    have hno : ∀ y ∈ xs, y.field ≠ some n := fun y hy h => hn.1 (by rw [hxn, ← h]; exact List.mem_map_of_mem hy)
    have hmem : n ∉ xs.filterMap Node.field := by
      intro h
      obtain ⟨y, hy, hyn⟩ := List.mem_filterMap.1 h
      exact hno y hy hyn
    have hfl : (firsts (xs.filterMap Node.field)).filter (· ≠ n) = firsts (xs.filterMap Node.field) := by
      refine List.filter_eq_self.2 fun m hm => ?_
      simp only [ne_eq, decide_not, Bool.not_eq_true', decide_eq_false_iff_not]
      rintro rfl
      exact hmem (mem_firsts hm)
    unfold grouped
    rw [List.filterMap_cons, hxn]
    simp only [firsts, hfl, List.flatMap_cons]
    have h1 : (x :: xs).filter (fun m => m.field = some n) = [x] := by
      rw [List.filter_cons, if_pos (by simp [hxn])]
      congr 1
      refine List.filter_eq_nil_iff.2 fun y hy => ?_
      simpa using hno y hy
    rw [h1, List.singleton_append]
    congr 1
    have h2 : ∀ m ∈ firsts (xs.filterMap Node.field), (x :: xs).filter (fun k => k.field = some m) = xs.filter (fun k => k.field = some m) := by
      intro m hm
      rw [List.filter_cons, if_neg]
      rw [hxn]
      intro h
      simp only [Option.some.injEq, decide_eq_true_eq] at h
      exact hmem (h ▸ mem_firsts hm)
    have := ih (fun y hy => hf y (by simp [hy])) hn.2
    unfold grouped at this
    exact (List.flatMap_congr fun m hm => h2 m hm).trans this

open Ion.Equivalence.Spec in
theorem kept_unique {x y : Val} (h : Kept x y) : x.field = y.field ∧ (UniqueFields x → y = x) := by
  refine Kept.rec (motive_1 := fun x y _ => x.field = y.field ∧ (UniqueFields x → y = x))
    (motive_2 := fun xs ys _ => xs.map Node.field = ys.map Node.field ∧ (AllUnique xs → ys = xs)) ?_ ?_ ?_ ?_ ?_ h
  · intro f a x; exact ⟨rfl, fun _ => rfl⟩
  · intro f a ty xs ys ht _ ih
    refine ⟨rfl, fun hu => ?_⟩
    simp only [UniqueFields] at hu
    rw [ih.2 hu.2]
  · intro f a xs ys _ hs ih
    refine ⟨rfl, fun hu => ?_⟩
    simp only [UniqueFields, true_implies] at hu
    obtain rfl := ih.2 hu.2
    rw [grouped_unique hs hu.1]
  · exact ⟨rfl, fun _ => rfl⟩
  · intro x y xs ys _ _ h1 h2
    refine ⟨by simp [h1.1, h2.1], fun hu => ?_⟩
    simp only [AllUnique] at hu
    rw [h1.2 hu.1, h2.2 hu.2]

open Ion.Equivalence.Spec in
theorem keptAll_unique {xs ys : List Val} (h : KeptAll xs ys) (hu : AllUnique xs) : ys = xs := by
  induction xs generalizing ys with
  | nil => cases h; rfl
  | cons x xs ih =>
    cases h with
    | cons _ y _ ys h1 h2 => rw [(kept_unique h1).2 hu.1, ih h2 hu.2]

open Ion.Equivalence.Spec in
/-- **C67** (`dump`, `load`, `dump`).  An object, or the elements of a sequence, dumped to binary, and loaded objects `objs` that mean the
same values (as `load` of the output returns, C12): if the values have no repeated field names, dumping `objs` gives the output of the
first `dump` again, in binary and in text. -/
theorem C67_dump_loaded_again (sequenceAsStream tupleAsSexp asSexp : Bool) (o : PyObj) (k : Kind) (values : List Val)
    (hv : AreValues tupleAsSexp seenText (topLevel sequenceAsStream o) values) (hk : AllKnown values) (hu : AllUnique values)
    (hs : SymbolsByText (topLevel sequenceAsStream o)) (objs : List PyObj) (hm : Mean objs values) :
    (OrdinaryTimes (topLevel sequenceAsStream o) → ∀ imports, dumps imports true asSexp (.seq k objs) = dumps imports sequenceAsStream tupleAsSexp o) ∧
    (TextTimes (topLevel sequenceAsStream o) → ∀ F indent noMarker,
      dumpsText F indent noMarker true asSexp (.seq k objs) = dumpsText F indent noMarker sequenceAsStream tupleAsSexp o) := by
  obtain ⟨ns, a1, a2, a3, a4, a5⟩ := mean_known hm hk
  obtain rfl := keptAll_unique a1 hu
  exact ⟨fun ht imports => (C67_same_values_same_bytes imports true sequenceAsStream asSexp tupleAsSexp (.seq k objs) o ns (a2 _) hv a3 hs a4 ht).2,
    fun ht F indent noMarker => (C67_same_values_same_text F indent noMarker true sequenceAsStream asSexp tupleAsSexp (.seq k objs) o ns (a2 _) hv a3 hs a5 ht).2⟩

/-! ## What the output does depend on -/

/-- **C67** (negative).  The Ion data model does not order the fields of a struct, and `ion_equals` takes these two dictionaries for equal
(C23), but they are written as different bytes: `{'a': 1, 'b': 2}` and `{'b': 2, 'a': 1}`. -/
theorem C67_field_order_is_written :
    dumps none true false (.dict (.plain .dict) [(some (.text [97]), .scalar (.plain .int) (.int 1)), (some (.text [98]), .scalar (.plain .int) (.int 2))]) ≠
      dumps none true false (.dict (.plain .dict) [(some (.text [98]), .scalar (.plain .int) (.int 2)), (some (.text [97]), .scalar (.plain .int) (.int 1))]) := by
  decide +kernel

/-- `a: 1, c: 2, a: 3`, as the items of an `IonPyDict` that somebody has put into this order. -/
def interleaved : PyObj :=
  .dict (.ion (some .struct) []) [(some (.text [97]), .scalar (.plain .int) (.int 1)), (some (.text [99]), .scalar (.plain .int) (.int 2)),
    (some (.text [97]), .scalar (.plain .int) (.int 3))]

/-- The same items as `load` returns them. -/
def regrouped : PyObj :=
  .dict (.ion (some .struct) []) [(some (.text [97]), .scalar (.plain .int) (.int 1)), (some (.text [97]), .scalar (.plain .int) (.int 3)),
    (some (.text [99]), .scalar (.plain .int) (.int 2))]

/-- Their Ion values. -/
def interleavedValue : Val :=
  .cont none [] .struct [.scalar (some (some [97])) [] (.int 1), .scalar (some (some [99])) [] (.int 2), .scalar (some (some [97])) [] (.int 3)]
def regroupedValue : Val :=
  .cont none [] .struct [.scalar (some (some [97])) [] (.int 1), .scalar (some (some [97])) [] (.int 3), .scalar (some (some [99])) [] (.int 2)]

theorem field_is {text : SymArg → Option (Option Text)} {key : Text} {i : Int} (h : text (.text key) = some (some key)) :
    IsValue false text (some (some key)) (.scalar (.plain .int) (.int i)) (.scalar (some (some key)) [] (.int i)) :=
  .scalar _ _ _ .int [] _ _ (.plain _ _ (by simp [Documented, nearest])) rfl rfl

theorem interleaved_is (t0 : Table) : IsValue false (argText t0) none interleaved interleavedValue := by
  refine .dict _ _ _ _ _ _ (.ion _ _) rfl ?_
  exact .cons _ (some [97]) _ _ _ _ (.text _ (.inl (by simp))) (field_is rfl) (.cons _ (some [99]) _ _ _ _ (.text _ (.inl (by simp))) (field_is rfl)
    (.cons _ (some [97]) _ _ _ _ (.text _ (.inl (by simp))) (field_is rfl) .nil))

theorem regrouped_is : IsValue false seenText none regrouped regroupedValue := by
  refine .dict _ _ _ _ _ _ (.ion _ _) rfl ?_
  exact .cons _ (some [97]) _ _ _ _ (.text _ (.inl (by simp))) (field_is rfl) (.cons _ (some [97]) _ _ _ _ (.text _ (.inl (by simp))) (field_is rfl)
    (.cons _ (some [99]) _ _ _ _ (.text _ (.inl (by simp))) (field_is rfl) .nil))

theorem kept_interleaved : Kept interleavedValue regroupedValue := by
  have : regroupedValue = .cont none [] .struct (grouped [.scalar (some (some [97])) [] (.int 1), .scalar (some (some [99])) [] (.int 2), .scalar (some (some [97])) [] (.int 3)]) := by
    simp [regroupedValue, grouped, firsts, Node.field]
  rw [this]
  exact .struct _ _ _ _ (.cons _ _ _ _ (.scalar _ _ _) (.cons _ _ _ _ (.scalar _ _ _) (.cons _ _ _ _ (.scalar _ _ _) .nil))) (by simp [Node.field])

/-- **C67** (negative).  `load` keeps the fields of one name together: a struct in which the fields of a name are not adjacent is
written differently after it has been loaded (and the same from then on, `C67_rewriting_is_stable`). -/
theorem C67_repeated_fields_are_grouped : ∃ first objs second, dumps none true false interleaved = .ok first ∧
    loadsBinary [] false first = some (.ok objs) ∧ dumps none true false (.seq (.plain .list) objs) = .ok second ∧ first ≠ second := by
  obtain ⟨T0, h0, -⟩ := SymbolTable.new_local_spec [] none false
  obtain ⟨first, hd, objs, hm, -, -, hl, -⟩ := C12_dump_load_partial none [] (by simp) [] rfl (by simp) T0 h0 false false interleaved [interleavedValue]
    (.cons _ _ _ _ (interleaved_is _) .nil)
    (by
      intro a ha
      simp [topLevel, symbolsIn, symbolsInAll, symbolsInItems, interleaved, asSymbol] at ha
      rcases ha with rfl | rfl | rfl <;> simp [GoodSym, EncodableText])
    (by
      intro v hv
      simp [topLevel, valuesIn, valuesInAll, valuesInItems, interleaved] at hv
      rcases hv with rfl | rfl | rfl <;> simp [Expressible, RegularVal, EncodableVal]) (by simp [interleavedValue, SystemLike])
  obtain ⟨ns, a1, a2, a3, a4, -⟩ := mean_known hm (values := [interleavedValue]) (by simp [AllKnown, interleavedValue, Node.HoldsAll, Node.Holds])
  obtain rfl := keptAll_fun (fun x _ => kept_fun x) a1 (.cons _ _ _ _ kept_interleaved .nil)
  have hsame := (C67_same_values_same_bytes none true true false false (.seq (.plain .list) objs) (.seq (.plain .list) [regrouped]) _ (a2 _)
    (.cons _ _ _ _ regrouped_is .nil) a3
    (by
      intro a ha
      simp [topLevel, symbolsIn, symbolsInAll, symbolsInItems, regrouped, asSymbol] at ha
      rcases ha with rfl | rfl <;> trivial) a4
    (by
      intro v hv tv htv
      subst htv
      simp [topLevel, valuesIn, valuesInAll, valuesInItems, regrouped] at hv)).2
  have hne : dumps none true false interleaved ≠ dumps none true false (.seq (.plain .list) [regrouped]) := by decide +kernel
  have hok : (dumps none true false (.seq (.plain .list) [regrouped])).toOption.isSome = true := by decide +kernel
  cases hsec : dumps none true false (.seq (.plain .list) [regrouped]) with
  | error e => rw [hsec] at hok; cases hok
  | ok second =>
    refine ⟨first, objs, second, hd, hl, hsame.trans hsec, ?_⟩
    rintro rfl
    exact hne (hd.trans hsec.symm)

/-! ## Examples -/

/-- A plain `{'a': [1, True], 'b': datetime(2000, 1, 1)}`. -/
def asPlain : PyObj :=
  .dict (.plain .dict) [(some (.text [97]), .seq (.plain .list) [.scalar (.plain .int) (.int 1), .scalar (.plain .bool) (.bool true)]),
    (some (.text [98]), .scalar (.plain .datetime) (.timestamp (.dt ⟨2000, 1, 1, 0, 0, 0, 0, none⟩)))]

/-- The same with Ion classes: an `IonPyDict` of an `IonPyList`, with an `IonPyBool` (an int), and an `IonPyTimestamp`. -/
def asLoaded : PyObj :=
  .dict (.ion (some .struct) []) [(some (.text [97]), .seq (.ion (some .list) []) [.scalar (.ion (some .int) []) (.int 1), .scalar (.ion (some .bool) []) (.int 1)]),
    (some (.text [98]), .scalar (.ion (some .timestamp) []) (.timestamp (.ts ⟨⟨2000, 1, 1, 0, 0, 0, 0, none⟩, some .second, 6, ⟨false, 0, -6⟩⟩)))]

/-- The Ion value of both. -/
def theirValue : Val :=
  .cont none [] .struct [.cont (some (some [97])) [] .list [.scalar none [] (.int 1), .scalar none [] (.bool true)],
    .scalar (some (some [98])) [] (.timestamp ⟨⟨2000, 1, 1, 0, 0, 0, 0, none⟩, some .second, 6, ⟨false, 0, -6⟩⟩)]

/-- Non-vacuity of `C67_same_values_same_bytes`, `C67_same_values_same_text` and `C67_dump_loaded_again`: two objects of different
classes for one value, without repeated fields. -/
example : AreValues false seenText (topLevel false asPlain) [theirValue] ∧ AreValues true seenText (topLevel false asLoaded) [theirValue] ∧
    (∀ o ∈ [asPlain, asLoaded], SymbolsByText (topLevel false o) ∧ OrdinaryTimes (topLevel false o) ∧ TextTimes (topLevel false o)) ∧
    AllKnown [theirValue] ∧ Ion.Equivalence.Spec.AllUnique [theirValue] ∧ asPlain ≠ asLoaded := by
  refine ⟨?_, ?_, ?_, ?_, ?_, ?_⟩
  · refine .cons _ _ _ _ (.dict _ _ _ _ _ _ (.plain _ _ (by simp [Documented, nearest, CType.ty])) rfl ?_) .nil
    refine .cons _ (some [97]) _ _ _ _ (.text _ (.inl (by simp))) ?_ (.cons _ (some [98]) _ _ _ _ (.text _ (.inl (by simp))) ?_ .nil)
    · refine .seq _ _ _ .list [] _ _ (.plain _ _ (by simp [Documented, nearest, CType.ty])) (by simp) rfl ?_
      exact .cons _ _ _ _ (.scalar _ _ _ .int [] _ _ (.plain _ _ (by simp [Documented, nearest])) rfl rfl)
        (.cons _ _ _ _ (.scalar _ _ _ .bool [] _ _ (.plain _ _ (by simp [Documented, nearest])) rfl rfl) .nil)
    · exact .scalar _ _ _ .timestamp [] _ _ (.plain _ _ (by simp [Documented, nearest])) rfl rfl
  · refine .cons _ _ _ _ (.dict _ _ _ _ _ _ (.ion _ _) rfl ?_) .nil
    refine .cons _ (some [97]) _ _ _ _ (.text _ (.inl (by simp))) ?_ (.cons _ (some [98]) _ _ _ _ (.text _ (.inl (by simp))) ?_ .nil)
    · refine .seq _ _ _ .list [] _ _ (.ion _ _) (by simp) rfl ?_
      exact .cons _ _ _ _ (.scalar _ _ _ .int [] _ _ (.ion _ _) rfl rfl) (.cons _ _ _ _ (.scalar _ _ _ .bool [] _ _ (.ion _ _) rfl rfl) .nil)
    · exact .scalar _ _ _ .timestamp [] _ _ (.ion _ _) rfl rfl
  · intro o ho
    rcases List.mem_pair.1 ho with rfl | rfl
    · refine ⟨?_, ?_, ?_⟩
      · intro a ha
        simp [topLevel, symbolsIn, symbolsInAll, symbolsInItems, asPlain, asSymbol] at ha
        rcases ha with rfl | rfl <;> trivial
      · intro v hv tv htv
        subst htv
        simp [topLevel, valuesIn, valuesInAll, valuesInItems, asPlain] at hv
        subst hv
        exact .inl ⟨by decide, fun _ h => by cases h⟩
      · intro v hv tv htv
        subst htv
        simp [topLevel, valuesIn, valuesInAll, valuesInItems, asPlain] at hv
        subst hv
        show DateTime.Valid _
        decide
    · refine ⟨?_, ?_, ?_⟩
      · intro a ha
        simp [topLevel, symbolsIn, symbolsInAll, symbolsInItems, asLoaded, asSymbol] at ha
        rcases ha with rfl | rfl <;> trivial
      · intro v hv tv htv
        subst htv
        simp [topLevel, valuesIn, valuesInAll, valuesInItems, asLoaded] at hv
        subst hv
        exact .inr rfl
      · intro v hv tv htv
        subst htv
        simp [topLevel, valuesIn, valuesInAll, valuesInItems, asLoaded] at hv
        subst hv
        simp
  · simp [AllKnown, theirValue, Node.HoldsAll, Node.Holds]
  · simp [theirValue, Ion.Equivalence.Spec.AllUnique, Ion.Equivalence.Spec.UniqueFields, Node.field]
  · intro h
    cases h

end Ion.Simple
