import Verif.SimpleSpec
import Verif.Props.RoundTrip
set_option linter.unusedSimpArgs false
/-!
# Properties C46, C45, C12, C13: `dump` and `load`
-/
namespace Ion.Simple
open Ion Ion.Spec Ion.Simple.Spec

/-! ## C46: Ion types of Python classes -/

theorem nearestAll_append (b : Bool) (x y : List Cls) : nearestAll b (x ++ y) = nearestAll b x ++ nearestAll b y := by
  induction x with
  | nil => simp [nearestAll]
  | cons c x ih => simp [nearestAll, ih]

theorem nearest_listed {b : Bool} {c : Cls} {ty : IonType} (h : fromType b c = some ty) : nearest b c = [ty] := by
  cases c <;> simp only [fromType, nearest, Option.some.injEq, reduceCtorEq] at h ⊢ <;>
    first | (rw [h]) | (subst h; rfl) | (cases b <;> simp_all)

theorem nearest_bases {b : Bool} {c : Cls} (h : fromType b c = none) : nearest b c = nearestAll b c.bases := by
  cases c <;> simp only [fromType, reduceCtorEq] at h <;> simp [nearest, Cls.bases, nearestAll]
  cases b <;> simp at h

/-- The search finds the last of the closest supported classes. -/
theorem searchType_eq (b : Bool) (types : List Cls) :
    searchType b types = match (nearestAll b types.reverse).getLast? with
      | some ty => .ok ty
      | none => .error .typeError := by
  induction types using searchType.induct b with
  | case1 => simp [searchType, nearestAll]
  | case2 c rest ty h =>
    rw [searchType, h]
    simp [nearestAll_append, nearestAll, nearest_listed h]
  | case3 c rest h ih =>
    rw [searchType, h]
    simp only
    rw [ih]
    simp [nearestAll_append, nearestAll, nearest_bases h]

/-- **C46** (types).  The Ion type that `dump` gives to an instance of a class without Ion nature: the documented type of
the class itself if it is in the table, and otherwise of the last of the closest supported classes that it inherits from;
`TypeError` if there is none. -/
theorem C46_type_of_class (tupleAsSexp : Bool) (c : Cls) :
    ionType tupleAsSexp c = match (nearest tupleAsSexp c).getLast? with
      | some ty => .ok ty
      | none => .error .typeError := by
  rw [ionType, searchType_eq]
  simp [nearestAll]

/-- **C46** (documented types).  Every class that is, or inherits from, supported classes of one Ion type gets this type. -/
theorem C46_documented_type (tupleAsSexp : Bool) (c : Cls) (ty : IonType) (h : Documented tupleAsSexp c ty) :
    ionType tupleAsSexp c = .ok ty := by
  rw [C46_type_of_class]
  obtain ⟨h1, h2⟩ := h
  cases hl : (nearest tupleAsSexp c).getLast? with
  | none => simp at hl; exact absurd hl h1
  | some t =>
    have := h2 t (List.mem_of_getLast? hl)
    rw [this]

/-- **C46** (rejection).  An object without Ion nature is rejected with `TypeError` exactly if its class neither is nor
inherits from a supported class. -/
theorem C46_unsupported_rejected (tupleAsSexp : Bool) (c : Cls) :
    ionType tupleAsSexp c = .error .typeError ↔ nearest tupleAsSexp c = [] := by
  rw [C46_type_of_class]
  cases hl : (nearest tupleAsSexp c).getLast? with
  | none => simp at hl; simp [hl]
  | some t =>
    have : nearest tupleAsSexp c ≠ [] := by intro h; rw [h] at hl; cases hl
    simp [this]

/-- `bool` is a subclass of `int`, but has a type of its own; a token is a tuple, but a symbol; a `Timestamp` is a
`datetime`; an `IntEnum` is an int; a subclass of `tuple` is a list or, on request, a sexp. -/
example : ionType false .bool = .ok .bool ∧ ionType true .symbolToken = .ok .symbol ∧ ionType false .timestamp = .ok .timestamp ∧
    ionType false (.other [.int, .other [.object]]) = .ok .int ∧ ionType false (.other [.tuple]) = .ok .list ∧
    ionType true (.other [.other [.tuple], .object]) = .ok .sexp ∧ ionType true (.other [.object]) = .error .typeError := by
  simp [C46_type_of_class, nearest, nearestAll]

/-- **C46** (negative).  The documentation says that a named tuple is written as a struct; it is written as a list. -/
theorem C46_namedtuple_is_list : ionType false (.other [.tuple]) = .ok .list := by
  simp [C46_type_of_class, nearest, nearestAll]

theorem andThen_none {a b : Sent} (h : (a.andThen b).2 = none) : a.2 = none ∧ b.2 = none := by
  unfold Sent.andThen at h
  cases ha : a.2 with
  | some err => rw [ha] at h; cases h
  | none => rw [ha] at h; exact ⟨rfl, h⟩

theorem type_supported {b : Bool} {c : Cls} {ty : IonType} (h : Kind.type b (.plain c) = .ok ty) : nearest b c ≠ [] := by
  intro h0
  rw [Kind.type, (C46_unsupported_rejected b c).2 h0] at h
  cases h

theorem dump_supported (b : Bool) (o : PyObj) : ∀ key s d, (dumpObj b key s d o).2 = none → ∀ c ∈ classesIn o, nearest b c ≠ [] := by
  refine PyObj.rec (motive_1 := fun o => ∀ key s d, (dumpObj b key s d o).2 = none → ∀ c ∈ classesIn o, nearest b c ≠ [])
    (motive_2 := fun os => ∀ d, (dumpElems b d os).2 = none → ∀ c ∈ classesInAll os, nearest b c ≠ [])
    (motive_3 := fun items => ∀ d, (dumpItems b d items).2 = none → ∀ c ∈ classesInItems items, nearest b c ≠ [])
    (motive_4 := fun p => ∀ key s d, (dumpObj b key s d p.2).2 = none → ∀ c ∈ classesIn p.2, nearest b c ≠ [])
    ?_ ?_ ?_ ?_ ?_ ?_ ?_ ?_ ?_ ?_ ?_ o
  · intro key s d _ c hc
    simp only [classesIn, List.mem_singleton] at hc
    subst hc; simp [nearest]
  · intro ty ann key s d _ c hc
    simp [classesIn] at hc
  · intro k v key s d h c hc
    cases k with
    | ion => simp [classesIn] at hc
    | plain c' =>
      simp only [classesIn, List.mem_singleton] at hc
      subst hc
      cases hk : Kind.type b (.plain c) with
      | error err => simp [dumpObj, hk] at h
      | ok ty => exact type_supported hk
  · intro k elems ih key s d h c hc
    cases hk : k.type b with
    | error err => simp [dumpObj, hk] at h
    | ok ty =>
      simp only [dumpObj, hk] at h
      by_cases h1 : ty = .struct
      · simp [h1] at h
      · simp only [h1, if_false] at h
        by_cases h2 : ty.isContainer = true
        · simp only [h2, if_true] at h
          have h3 := (andThen_none (andThen_none h).2).1
          cases k with
          | plain c' =>
            simp only [classesIn, List.mem_cons] at hc
            rcases hc with rfl | hc
            · exact type_supported hk
            · exact ih _ h3 c hc
          | ion => exact ih _ h3 c hc
        · simp [h2] at h
  · intro k items ih key s d h c hc
    cases hk : k.type b with
    | error err => simp [dumpObj, hk] at h
    | ok ty =>
      simp only [dumpObj, hk] at h
      by_cases h1 : ty = .struct
      · simp only [h1, if_true] at h
        have h3 := (andThen_none (andThen_none h).2).1
        cases k with
        | plain c' =>
          simp only [classesIn, List.mem_cons] at hc
          rcases hc with rfl | hc
          · exact type_supported hk
          · exact ih _ h3 c hc
        | ion => exact ih _ h3 c hc
      · simp [h1] at h
  · intro c' key s d h c hc
    simp only [dumpObj] at h
    cases hk : ionType b c' with
    | error err => rw [hk] at h; cases h
    | ok ty => rw [hk] at h; cases h
  · intro d _ c hc; simp [classesInAll] at hc
  · intro o os ih1 ih2 d h c hc
    simp only [dumpElems] at h
    obtain ⟨h1, h2⟩ := andThen_none h
    simp only [classesInAll, List.mem_append] at hc
    exact hc.elim (ih1 _ _ _ h1 c) (ih2 _ h2 c)
  · intro d _ c hc; simp [classesInItems] at hc
  · intro p items ih1 ih2 d h c hc
    obtain ⟨key, o⟩ := p
    simp only [dumpItems] at h
    obtain ⟨h1, h2⟩ := andThen_none h
    simp only [classesInItems, List.mem_append] at hc
    exact hc.elim (ih1 _ _ _ h1 c) (ih2 _ h2 c)
  · intro key o ih
    exact ih

/-- **C46** (rejection of trees).  `dumps` does not return for an object that contains, at any depth, an object without Ion
nature whose class neither is nor inherits from a supported class. -/
theorem C46_dump_rejects (imports : Option (List SymbolTable)) (tupleAsSexp : Bool) (o : PyObj) (c : Cls) (hc : c ∈ classesIn o)
    (hn : nearest tupleAsSexp c = []) : ∃ err, dumps imports false tupleAsSexp o = .error err := by
  cases hd : dumps imports false tupleAsSexp o with
  | error err => exact ⟨err, rfl⟩
  | ok doc =>
    exfalso
    have hsent : (Sent.andThen ([ION_VERSION_MARKER_EVENT], none) (dumpElems tupleAsSexp 0 (topLevel false o))).2 = none := by
      unfold dumps dump feed at hd
      generalize runEvents (ManagedWriter.step imports) ManagedWriter.init _ = r at hd
      obtain ⟨cs, res⟩ := r
      cases res with
      | error err => cases hd
      | ok s =>
        simp only at hd
        cases h : (Sent.andThen ([ION_VERSION_MARKER_EVENT], none) (dumpElems tupleAsSexp 0 (topLevel false o))).2 with
        | none => rfl
        | some err => rw [h] at hd; cases hd
    have h2 := (andThen_none hsent).2
    simp only [topLevel, Bool.false_eq_true, if_false, dumpElems] at h2
    exact dump_supported tupleAsSexp o _ _ _ (andThen_none h2).1 c hc hn

example : ∃ err, dumps none false false (.dict (.plain .dict) [(some (.text [97]), .seq (.plain .list) [.scalar (.plain .int) (.int 1), .other (.other [.object])])]) = .error err :=
  C46_dump_rejects none false _ (.other [.object]) (by simp [classesIn, classesInItems, classesInAll]) (by simp [nearest, nearestAll])

/-! ## What `dump` sends to the writer -/

open Ion.ManagedWriter

/-- The kind of an object. -/
def kindOf : PyObj → Kind
  | .none => .plain .noneType
  | .null ty ann => .ion ty ann
  | .scalar k _ => k
  | .seq k _ => k
  | .dict k _ => k
  | .other c => .plain c

/-- The key and the field name of a value: a field name inside a struct, neither elsewhere. -/
def Placed (sym : SymArg → Option (Option Text)) (o : PyObj) (inStruct : Bool) (key : Option SymArg) (f : Option (Option Text)) : Prop :=
  if inStruct then ∃ name, f = some name ∧ IsFieldName sym o key name else f = none ∧ key = none

/-- The field name of an event for an object. -/
def eventField (k : Kind) (key : Option SymArg) (inStruct : Bool) : Option SymArg :=
  match k with
  | .plain _ => key
  | .ion _ _ => natureField key inStruct

/-- The annotations of an event for an object. -/
def eventAnn : Kind → List SymArg
  | .plain _ => []
  | .ion _ ann => ann

theorem objEvent_eq (k : Kind) (et : IonEventType) (ty : Option IonType) (v : Option PyVal) (key : Option SymArg) (s : Bool) (d : Nat) :
    objEvent k et ty v key s d = { eventType := et, ionType := ty, value := .ok v, fieldName := eventField k key s, annotations := eventAnn k, depth := some (d : Int) } := by
  cases k <;> rfl

theorem placed_field {t0 : Table} {o : PyObj} {s : Bool} {key : Option SymArg} {f : Option (Option Text)}
    (h : Placed (argText t0) o s key f) : fieldOf (argText t0) s (eventField (kindOf o) key s) = some f := by
  unfold Placed at h
  cases s with
  | false => simp only [Bool.false_eq_true, if_false] at h; simp [fieldOf, h.1]
  | true =>
    simp only [if_true] at h
    obtain ⟨name, rfl, h⟩ := h
    simp only [fieldOf, if_true]
    cases h with
    | text t h =>
      cases hk : kindOf o with
      | plain c => simp [eventField, argText]
      | ion ty ann => simp [eventField, natureField, argText]
    | token k name h =>
      cases hk : kindOf o with
      | plain c => simp [eventField, h]
      | ion ty ann => simp [eventField, natureField, h]
    | unknown h =>
      cases hk : kindOf o with
      | plain c =>
        exfalso
        cases o with
        | none => exact h
        | null => simp [kindOf] at hk
        | scalar k v => simp only [kindOf] at hk; subst hk; exact h
        | seq k v => simp only [kindOf] at hk; subst hk; exact h
        | dict k v => simp only [kindOf] at hk; subst hk; exact h
        | other => exact h
      | ion ty ann => simp [eventField, natureField, argText, ManagedWriter.find_eq]

/-- A scalar value with everything that the encoding can express (C05, C06, C08), and that the reader can return. -/
def Expressible (v : PyVal) : Prop := RegularVal v ∧ EncodableVal v ∧ ∀ d, v = .decimal d → Scalars.ReadRange d

theorem plain_not_ion {o : PyObj} {c : Cls} (h : kindOf o = .plain c) : ¬ IsIon o := by
  cases o with
  | none => simp [IsIon]
  | null => simp [kindOf] at h
  | scalar k v => simp only [kindOf] at h; subst h; simp [IsIon]
  | seq k v => simp only [kindOf] at h; subst h; simp [IsIon]
  | dict k v => simp only [kindOf] at h; subst h; simp [IsIon]
  | other => simp [IsIon]

theorem placed_symbol {sym : SymArg → Option (Option Text)} {o : PyObj} {s : Bool} {key : Option SymArg} {f : Option (Option Text)} {limit : Nat}
    (h : Placed sym o s key f) (hk : ∀ a, key = some a → GoodSym limit a) :
    ∀ a, eventField (kindOf o) key s = some a → a ≠ .text [] ∧ GoodSym limit a := by
  intro a ha
  unfold Placed at h
  cases s with
  | false =>
    simp only [Bool.false_eq_true, if_false] at h
    rw [h.2] at ha
    cases hk : kindOf o <;> rw [hk] at ha <;> simp [eventField, natureField] at ha
  | true =>
    simp only [if_true] at h
    obtain ⟨name, rfl, h⟩ := h
    cases hko : kindOf o with
    | plain c =>
      rw [hko] at ha
      simp only [eventField] at ha
      subst ha
      refine ⟨?_, hk a rfl⟩
      cases h with
      | text t h =>
        rcases h with h | h
        · simpa using h
        · exact absurd h (plain_not_ion hko)
      | token => simp
    | ion ty ann =>
      rw [hko] at ha
      cases h with
      | text t h =>
        simp only [eventField, natureField, if_true, Option.some.injEq] at ha
        subst ha
        exact ⟨by simp, by have := hk _ rfl; simpa [GoodSym] using this⟩
      | token k name h =>
        simp only [eventField, natureField, if_true, Option.some.injEq] at ha
        subst ha
        exact ⟨by simp, hk _ rfl⟩
      | unknown h =>
        simp only [eventField, natureField, if_true, Option.some.injEq] at ha
        subst ha
        exact ⟨by simp, by simp [GoodSym]⟩

theorem typed_type {b : Bool} {k : Kind} {ty : IonType} {ann : List SymArg} (h : Typed b k ty ann) :
    k.type b = .ok ty ∧ eventAnn k = ann := by
  cases h with
  | plain c ty h => exact ⟨C46_documented_type b c ty h, rfl⟩
  | ion ty ann => exact ⟨rfl, rfl⟩

theorem andThen_ok {a b : List IonEvent} : Sent.andThen (a, none) (b, none) = (a ++ b, none) := rfl

/-- The values as a list of events, in the terms of C15. -/
structure Describes (t0 : Table) (inStruct : Bool) (evs : List IonEvent) (ns : List Val) : Prop where
  run : ∀ (cur : List Val) (opens : List (OpenNode (Option Text))), (Tree.mk cur opens).inStruct = inStruct →
    (Tree.mk cur opens).run (argText t0) (fun k => argText t0 (.tok k)) (evs.map asToken) = some ⟨cur ++ ns, opens⟩

theorem Describes.append {t0 : Table} {s : Bool} {a b : List IonEvent} {xs ys : List Val} (ha : Describes t0 s a xs)
    (hb : Describes t0 s b ys) : Describes t0 s (a ++ b) (xs ++ ys) := by
  refine ⟨fun cur opens hin => ?_⟩
  rw [List.map_append, run_append, ha.run cur opens hin]
  simp only [Option.bind_some]
  rw [hb.run (cur ++ xs) opens (by simpa [Tree.inStruct] using hin)]
  simp

/-- All the events can be written and read back. -/
def Fine (limit : Nat) (evs : List IonEvent) : Prop :=
  ∀ e ∈ evs, SymbolsOK limit e ∧ RegularEvent e ∧ EncodableEvent e ∧ ReadableEvent e

theorem Fine.append {limit : Nat} {a b : List IonEvent} (ha : Fine limit a) (hb : Fine limit b) : Fine limit (a ++ b) := by
  intro e he
  rcases List.mem_append.1 he with h | h
  · exact ha e h
  · exact hb e h

theorem ctype_container {ty : CType} : ty.ty.isContainer = true := by cases ty <;> rfl

theorem describes_scalar {t0 : Table} {o : PyObj} {s : Bool} {key : Option SymArg} {f : Option (Option Text)} {ty : IonType} {ov : Option PyVal}
    {ann : List SymArg} {a : List (Option Text)} {x : Scalar (Option Text)} {d : Nat} (hp : Placed (argText t0) o s key f)
    (hann : eventAnn (kindOf o) = ann) (ha : allSome (argText t0) ann = some a)
    (hv : match ov with | none => x = .null ty | some v => scalarOf (argText t0) ty v = some x) :
    Describes t0 s [objEvent (kindOf o) .scalar (some ty) ov key s d] [.scalar f a x] := by
  refine ⟨fun cur opens hin => ?_⟩
  have hf := placed_field hp
  rw [objEvent_eq, hann]
  cases ov with
  | none =>
    simp only at hv
    subst hv
    simp only [List.map_cons, List.map_nil, asToken]
    split <;> simp [Tree.run, Tree.step, hin, hf, ha, denote]
  | some v =>
    simp only [scalarOf] at hv
    by_cases hs : ty = .symbol
    · subst hs
      simp only [if_true, Option.map_eq_some_iff, Option.bind_eq_some_iff] at hv
      obtain ⟨y, ⟨arg, h1, h2⟩, rfl⟩ := hv
      cases v <;> simp only [asSymbol, Option.some.injEq, reduceCtorEq] at h1
      · subst h1
        simp [asToken, Tree.run, Tree.step, hin, hf, ha, denote, h2]
      · subst h1
        simp only [argText, Option.some.injEq] at h2
        subst h2
        simp [asToken, Tree.run, Tree.step, hin, hf, ha, denote, argText]
    · simp only [hs, if_false] at hv
      have : ¬ (some ty = some IonType.symbol) := by simpa using hs
      simp only [List.map_cons, List.map_nil, asToken, this, if_false]
      simp [Tree.run, Tree.step, hin, hf, ha, hv]

theorem describes_container {t0 : Table} {o : PyObj} {s : Bool} {key : Option SymArg} {f : Option (Option Text)} {ty : CType}
    {ann : List SymArg} {a : List (Option Text)} {d : Nat} {evs : List IonEvent} {ns : List Val} (hp : Placed (argText t0) o s key f)
    (hann : eventAnn (kindOf o) = ann) (ha : allSome (argText t0) ann = some a) (hc : Describes t0 (ty = .struct) evs ns) :
    Describes t0 s ([objEvent (kindOf o) .containerStart (some ty.ty) none key s d] ++ (evs ++ [endEvent])) [.cont f a ty ns] := by
  refine ⟨fun cur opens hin => ?_⟩
  have hf := placed_field hp
  have h1 : asToken (objEvent (kindOf o) .containerStart (some ty.ty) none key s d) = objEvent (kindOf o) .containerStart (some ty.ty) none key s d := by
    rw [objEvent_eq]; cases ty <;> rfl
  have h2 : asToken endEvent = endEvent := rfl
  simp only [List.map_append, List.map_cons, List.map_nil, h1, h2, List.cons_append, List.nil_append]
  rw [Tree.run, objEvent_eq, hann]
  simp only [Tree.step, hin, hf, ha, Option.bind_some, ctype_ty]
  rw [run_append, hc.run [] _ (by simp [Tree.inStruct])]
  simp [Tree.run, Tree.step, endEvent]

theorem fine_event {limit : Nat} {sym : SymArg → Option (Option Text)} {o : PyObj} {s : Bool} {key : Option SymArg} {f : Option (Option Text)}
    (hp : Placed sym o s key f) (hk : ∀ a, key = some a → GoodSym limit a) (ha : ∀ a ∈ eventAnn (kindOf o), GoodSym limit a)
    {et : IonEventType} {ty : Option IonType} {ov : Option PyVal} {d : Nat}
    (hv : ∀ v, ov = some v → Expressible v ∧ (ty = some .symbol → ∃ a, asSymbol v = some a ∧ GoodSym limit a)) :
    Fine limit [objEvent (kindOf o) et ty ov key s d] := by
  intro e he
  simp only [List.mem_singleton] at he
  subst he
  rw [objEvent_eq]
  refine ⟨⟨placed_symbol hp hk, ha, ?_⟩, ?_, ?_, ?_⟩
  · intro hty
    cases ov with
    | none => exact .inl rfl
    | some v =>
      obtain ⟨a, h1, h2⟩ := (hv v rfl).2 hty
      exact .inr ⟨v, a, rfl, by cases v <;> exact h1, h2⟩
  · intro _ v h
    cases h
    exact (hv v rfl).1.1
  · intro _ v h
    cases h
    exact (hv v rfl).1.2.1
  · intro _ v h
    cases h
    exact (hv _ rfl).1.2.2 _ rfl

theorem ann_sub {k : Kind} {rest l : List SymArg} {limit : Nat} (h : ∀ a ∈ l, GoodSym limit a)
    (hl : (∃ c, k = .plain c ∧ l = rest) ∨ ∃ ty ann, k = .ion ty ann ∧ l = ann ++ rest) :
    (∀ a ∈ eventAnn k, GoodSym limit a) ∧ ∀ a ∈ rest, GoodSym limit a := by
  rcases hl with ⟨c, rfl, rfl⟩ | ⟨ty, ann, rfl, rfl⟩
  · exact ⟨by simp [eventAnn], h⟩
  · exact ⟨fun a ha => h a (List.mem_append_left _ ha), fun a ha => h a (List.mem_append_right _ ha)⟩

/-- What `dump` sends for an object that stands for an Ion value describes this value. -/
theorem dump_value {b : Bool} {t0 : Table} {f : Option (Option Text)} {o : PyObj} {n : Val} (h : IsValue b (argText t0) f o n) :
    ∀ key s d, Placed (argText t0) o s key f → ∃ evs, dumpObj b key s d o = (evs, none) ∧ Describes t0 s evs [n] ∧
      ∀ limit, (∀ a, key = some a → GoodSym limit a) → (∀ a ∈ symbolsIn o, GoodSym limit a) → (∀ v ∈ valuesIn o, Expressible v) →
        Fine limit evs := by
  refine IsValue.rec (tupleAsSexp := b) (sym := argText t0)
    (motive_1 := fun f o n _ => ∀ key s d, Placed (argText t0) o s key f → ∃ evs, dumpObj b key s d o = (evs, none) ∧ Describes t0 s evs [n] ∧
      ∀ limit, (∀ a, key = some a → GoodSym limit a) → (∀ a ∈ symbolsIn o, GoodSym limit a) → (∀ v ∈ valuesIn o, Expressible v) → Fine limit evs)
    (motive_2 := fun os ns _ => ∀ d, ∃ evs, dumpElems b d os = (evs, none) ∧ Describes t0 false evs ns ∧
      ∀ limit, (∀ a ∈ symbolsInAll os, GoodSym limit a) → (∀ v ∈ valuesInAll os, Expressible v) → Fine limit evs)
    (motive_3 := fun items ns _ => ∀ d, ∃ evs, dumpItems b d items = (evs, none) ∧ Describes t0 true evs ns ∧
      ∀ limit, (∀ a ∈ symbolsInItems items, GoodSym limit a) → (∀ v ∈ valuesInItems items, Expressible v) → Fine limit evs)
    ?_ ?_ ?_ ?_ ?_ ?_ ?_ ?_ ?_ h
  · -- None
    intro f key s d hp
    refine ⟨_, rfl, describes_scalar (o := .none) hp rfl rfl rfl, fun limit hk _ _ => fine_event (o := .none) hp hk (by simp [kindOf, eventAnn]) (by simp)⟩
  · -- IonPyNull
    intro f ty ann a ha key s d hp
    refine ⟨_, rfl, describes_scalar (o := .null (some ty) ann) hp rfl ha rfl, fun limit hk hs _ => fine_event (o := .null (some ty) ann) hp hk ?_ (by simp)⟩
    simpa [kindOf, eventAnn, symbolsIn] using hs
  · -- scalars
    intro f k v ty ann a x hk ha hx key s d hp
    obtain ⟨h1, h2⟩ := typed_type hk
    have hc : ty.isContainer = false := by
      cases ty <;> first | rfl | (cases v <;> simp [scalarOf, denote] at hx)
    refine ⟨[objEvent k .scalar (some ty) (some v) key s d], by simp only [dumpObj, h1, hc, Bool.false_eq_true, if_false], describes_scalar (ov := some v) (o := .scalar k v) hp h2 ha hx, ?_⟩
    intro limit hkey hs hv
    obtain ⟨hs1, hs2⟩ := ann_sub (k := k) (rest := (asSymbol v).toList) hs (by cases k <;> simp [symbolsIn])
    refine fine_event (o := .scalar k v) hp hkey hs1 ?_
    intro v' hv'
    cases hv'
    refine ⟨hv v (by simp [valuesIn]), ?_⟩
    intro hty
    simp only [Option.some.injEq] at hty
    subst hty
    simp only [scalarOf, if_true, Option.map_eq_some_iff, Option.bind_eq_some_iff] at hx
    obtain ⟨_, ⟨arg, h1, -⟩, -⟩ := hx
    exact ⟨arg, h1, hs2 arg (by simp [h1])⟩
  · -- sequences
    intro f k elems ty ann a ns hk hty ha _ ih key s d hp
    obtain ⟨h1, h2⟩ := typed_type hk
    obtain ⟨evs, e1, e2, e3⟩ := ih (d + 1)
    have hs : ¬ ty.ty = IonType.struct := by cases ty <;> simp [CType.ty] at hty ⊢
    have hst : decide (ty = CType.struct) = false := by simpa using hty
    refine ⟨[objEvent k .containerStart (some ty.ty) none key s d] ++ (evs ++ [endEvent]), by simp only [dumpObj, h1, hs, if_false, ctype_container, if_true, e1, andThen_ok], ?_, ?_⟩
    · exact describes_container (o := .seq k elems) hp h2 ha (by rw [hst]; exact e2)
    · intro limit hkey hsy hv
      obtain ⟨hs1, hs2⟩ := ann_sub (k := k) (rest := symbolsInAll elems) hsy (by cases k <;> simp [symbolsIn])
      refine (fine_event (o := .seq k elems) hp hkey hs1 (by simp)).append ((e3 limit hs2 (by simpa [valuesIn] using hv)).append ?_)
      intro e he
      simp only [List.mem_singleton] at he
      subst he
      exact ⟨⟨by simp [endEvent], by simp [endEvent], by simp [endEvent]⟩, by simp [RegularEvent, endEvent], by simp [EncodableEvent, endEvent], by simp [ReadableEvent, endEvent]⟩
  · -- dictionaries
    intro f k items ann a ns hk ha _ ih key s d hp
    obtain ⟨h1, h2⟩ := typed_type hk
    obtain ⟨evs, e1, e2, e3⟩ := ih (d + 1)
    refine ⟨[objEvent k .containerStart (some .struct) none key s d] ++ (evs ++ [endEvent]), by simp only [dumpObj, h1, if_true, e1, andThen_ok], ?_, ?_⟩
    · exact describes_container (o := .dict k items) (ty := .struct) hp h2 ha (by simpa using e2)
    · intro limit hkey hsy hv
      obtain ⟨hs1, hs2⟩ := ann_sub (k := k) (rest := symbolsInItems items) hsy (by cases k <;> simp [symbolsIn])
      refine (fine_event (o := .dict k items) hp hkey hs1 (by simp)).append ((e3 limit hs2 (by simpa [valuesIn] using hv)).append ?_)
      intro e he
      simp only [List.mem_singleton] at he
      subst he
      exact ⟨⟨by simp [endEvent], by simp [endEvent], by simp [endEvent]⟩, by simp [RegularEvent, endEvent], by simp [EncodableEvent, endEvent], by simp [ReadableEvent, endEvent]⟩
  · intro d
    exact ⟨[], rfl, ⟨fun cur opens _ => by simp [Tree.run]⟩, fun _ _ _ => by simp [Fine]⟩
  · intro o n os ns _ _ ih1 ih2 d
    obtain ⟨evs1, e1, e2, e3⟩ := ih1 none false d (by simp [Placed])
    obtain ⟨evs2, f1, f2, f3⟩ := ih2 d
    refine ⟨_, by simp only [dumpElems, e1, f1, andThen_ok], e2.append f2, ?_⟩
    intro limit hs hv
    simp only [symbolsInAll, valuesInAll, List.mem_append] at hs hv
    exact (e3 limit (by simp) (fun a ha => hs a (.inl ha)) (fun v h => hv v (.inl h))).append (f3 limit (fun a ha => hs a (.inr ha)) (fun v h => hv v (.inr h)))
  · intro d
    exact ⟨[], rfl, ⟨fun cur opens _ => by simp [Tree.run]⟩, fun _ _ _ => by simp [Fine]⟩
  · intro key name o n items ns hname _ _ ih1 ih2 d
    obtain ⟨evs1, e1, e2, e3⟩ := ih1 key true d (by simp [Placed, hname])
    obtain ⟨evs2, f1, f2, f3⟩ := ih2 d
    refine ⟨_, by simp only [dumpItems, e1, f1, andThen_ok], e2.append f2, ?_⟩
    intro limit hs hv
    simp only [symbolsInItems, valuesInItems, List.mem_append] at hs hv
    exact (e3 limit (fun a ha => hs a (.inl (.inl (by simp [ha])))) (fun a ha => hs a (.inl (.inr ha))) (fun v h => hv v (.inl h))).append (f3 limit (fun a ha => hs a (.inr ha)) (fun v h => hv v (.inr h)))

/-- The same for the values at the top level. -/
theorem dump_values {b : Bool} {t0 : Table} {os : List PyObj} {ns : List Val} (h : AreValues b (argText t0) os ns) :
    ∃ evs, dumpElems b 0 os = (evs, none) ∧ valuesGiven t0 evs = some ns ∧
      ∀ limit, (∀ a ∈ symbolsInAll os, GoodSym limit a) → (∀ v ∈ valuesInAll os, Expressible v) → Fine limit evs := by
  have : ∀ d, ∃ evs, dumpElems b d os = (evs, none) ∧ Describes t0 false evs ns ∧
      ∀ limit, (∀ a ∈ symbolsInAll os, GoodSym limit a) → (∀ v ∈ valuesInAll os, Expressible v) → Fine limit evs := by
    induction os generalizing ns with
    | nil =>
      cases h
      intro d
      exact ⟨[], rfl, ⟨fun cur opens _ => by simp [Tree.run]⟩, fun _ _ _ => by simp [Fine]⟩
    | cons o os ih =>
      cases h with
      | cons _ n _ ns h1 h2 =>
        intro d
        obtain ⟨evs1, e1, e2, e3⟩ := dump_value h1 none false d (by simp [Placed])
        obtain ⟨evs2, f1, f2, f3⟩ := ih h2 d
        refine ⟨_, by simp only [dumpElems, e1, f1, andThen_ok], e2.append f2, ?_⟩
        intro limit hs hv
        simp only [symbolsInAll, valuesInAll, List.mem_append] at hs hv
        exact (e3 limit (by simp) (fun a ha => hs a (.inl ha)) (fun v h => hv v (.inl h))).append (f3 limit (fun a ha => hs a (.inr ha)) (fun v h => hv v (.inr h)))
  obtain ⟨evs, h1, h2, h3⟩ := this 0
  refine ⟨evs, h1, given_iff.2 ?_, h3⟩
  have := h2.run [] [] rfl
  simpa [Tree.empty] using this

/-! ## What `load` makes of the events of a reader -/

open Ion.ManagedReader (Event pulls pull absorb)

section
variable {R : Type} (step : R → RawReader.Cmd → Option (Except PyErr Event × R))

/-- With `NEXT` only, the reader gives these events. -/
inductive Delivers : Source R → List Event → Source R → Prop
  | nil (src : Source R) : Delivers src [] src
  | cons (src src1 src2 : Source R) (e : Event) (es : List Event) : nextEvent step src = some (.ok e, src1) →
      Delivers src1 es src2 → Delivers src (e :: es) src2

theorem Delivers.split {src src2 : Source R} {a b : List Event} (h : Delivers step src (a ++ b) src2) :
    ∃ src1, Delivers step src a src1 ∧ Delivers step src1 b src2 := by
  induction a generalizing src with
  | nil => exact ⟨src, .nil _, h⟩
  | cons e a ih =>
    cases h with
    | cons _ src1 _ _ _ h1 h2 =>
      obtain ⟨src3, h3, h4⟩ := ih h2
      exact ⟨src3, .cons _ _ _ _ _ h1 h3, h4⟩
end

theorem absorb_await {R : Type} (raw : R → RawReader.Cmd → Except PyErr IonEvent × R) (cs : List Bytes) :
    ∀ {r : Option (Except PyErr Event × ManagedReader.Status R)} {e : Event} {st' : ManagedReader.Status R} {cs' : List Bytes},
    absorb raw r cs = some (.ok e, st', cs') →
    (e.eventType.isStreamSignal = false →
      (r >>= fun p => awaitEvent (ManagedReader.send raw) p.1 p.2 cs) = some (.ok e, .active st' cs')) ∧
    (e.eventType = .streamEnd →
      (r >>= fun p => awaitEvent (ManagedReader.send raw) p.1 p.2 cs) = some (.ok streamEnd, .ended)) := by
  induction cs with
  | nil =>
    intro r e st' cs' h
    rcases r with _ | ⟨r, st⟩
    · cases h
    · simp only [absorb, Option.some.injEq, Prod.mk.injEq] at h
      obtain ⟨rfl, rfl, rfl⟩ := h
      simp only [bind, Option.bind_some]
      rw [awaitEvent.eq_def]
      constructor
      · intro he; simp [he]
      · intro he; simp [he, IonEventType.isStreamSignal]
  | cons d ds ih =>
    intro r e st' cs' h
    rcases r with _ | ⟨r, st⟩
    · cases h
    · cases r with
      | error err => simp [absorb] at h
      | ok e0 =>
        simp only [absorb] at h
        simp only [bind, Option.bind_some]
        rw [awaitEvent.eq_def]
        by_cases hs : e0.eventType.isStreamSignal = true
        · simp only [hs, if_true] at h ⊢
          exact ih h
        · simp only [Bool.not_eq_true] at hs
          simp only [hs, Bool.false_eq_true, if_false, Option.some.injEq, Prod.mk.injEq, Except.ok.injEq] at h ⊢
          obtain ⟨rfl, rfl, rfl⟩ := h
          refine ⟨fun _ => by simp, fun he => ?_⟩
          rw [he] at hs; cases hs

/-- The events that a reader gives to a blocking caller. -/
theorem pulls_delivers {R : Type} (raw : R → RawReader.Cmd → Except PyErr IonEvent × R) (last : Event) (hlast : last.eventType = .streamEnd)
    (es : List Event) (hes : ∀ e ∈ es, e.eventType.isStreamSignal = false) : ∀ {st : ManagedReader.Status R} {cs : List Bytes},
    pulls raw st cs (List.replicate (es.length + 1) .next) = some ((es ++ [last]).map .ok) →
    ∃ src2, Delivers (ManagedReader.send raw) (.active st cs) es src2 ∧ nextEvent (ManagedReader.send raw) src2 = some (.ok streamEnd, .ended) := by
  induction es with
  | nil =>
    intro st cs h
    refine ⟨_, .nil _, ?_⟩
    simp only [List.length_nil, Nat.zero_add, List.replicate_one, pulls, List.nil_append, List.map_cons, List.map_nil] at h
    cases hp : pull raw st cs .next with
    | none => rw [hp] at h; cases h
    | some p =>
      obtain ⟨r, st', cs'⟩ := p
      cases r with
      | error err => rw [hp] at h; simp at h
      | ok e =>
        rw [hp] at h
        simp only [Option.map_some, Option.some.injEq, List.cons.injEq, Except.ok.injEq, and_true] at h
        subst h
        exact (absorb_await raw cs hp).2 hlast
  | cons e es ih =>
    intro st cs h
    rw [List.length_cons, List.replicate_succ] at h
    simp only [pulls] at h
    cases hp : pull raw st cs .next with
    | none => rw [hp] at h; cases h
    | some p =>
      obtain ⟨r, st', cs'⟩ := p
      cases r with
      | error err => rw [hp] at h; simp at h
      | ok e0 =>
        rw [hp] at h
        simp only [Option.map_eq_some_iff, List.cons_append, List.map_cons, List.cons.injEq, Except.ok.injEq] at h
        obtain ⟨rest, h1, rfl, h2⟩ := h
        subst h2
        obtain ⟨src2, h3, h4⟩ := ih (fun x hx => hes x (by simp [hx])) h1
        exact ⟨src2, .cons _ _ _ _ _ ((absorb_await raw cs hp).1 (hes e0 (by simp))) h3, h4⟩

/-! ### Multimaps and permutations -/

theorem items_add {κ ν : Type} [DecidableEq κ] (m : Multimap κ ν) (k : κ) (v : ν) :
    (Multimap.items (Multimap.addItem m k v)).Perm (Multimap.items m ++ [(k, v)]) := by
  have hset : ∀ (m : Multimap κ ν) (vs : List ν), PyDict.get m k = some vs →
      (Multimap.items (PyDict.set m k (vs ++ [v]))).Perm (Multimap.items m ++ [(k, v)]) := by
    intro m
    induction m with
    | nil => intro vs h; simp at h
    | cons p m ih =>
      intro vs h
      obtain ⟨k', ws⟩ := p
      by_cases hk : k' = k
      · subst hk
        simp only [PyDict.get, if_true, Option.some.injEq] at h
        subst h
        simp only [PyDict.set, if_true, Multimap.items, List.flatMap_cons, List.map_append, List.map_cons, List.map_nil, List.append_assoc]
        exact List.Perm.append_left _ List.perm_append_comm
      · simp only [PyDict.get, hk, if_false] at h
        simp only [PyDict.set, hk, if_false, Multimap.items, List.flatMap_cons, List.append_assoc]
        exact List.Perm.append_left _ (ih vs h)
  have hnew : ∀ (m : Multimap κ ν), PyDict.get m k = none → Multimap.items (PyDict.set m k [v]) = Multimap.items m ++ [(k, v)] := by
    intro m
    induction m with
    | nil => intro _; rfl
    | cons p m ih =>
      intro h
      obtain ⟨k', ws⟩ := p
      by_cases hk : k' = k
      · simp [PyDict.get, hk] at h
      · simp only [PyDict.get, hk, if_false] at h
        have := ih h
        simp only [PyDict.set, hk, if_false, Multimap.items, List.flatMap_cons, List.append_assoc] at this ⊢
        rw [this]
  unfold Multimap.addItem
  cases h : PyDict.get m k with
  | none => simp only [Multimap.setItem]; rw [hnew m h]
  | some vs => exact hset m vs h

theorem items_foldl {κ ν : Type} [DecidableEq κ] (l : List (κ × ν)) (m : Multimap κ ν) :
    (Multimap.items (l.foldl (fun m p => Multimap.addItem m p.1 p.2) m)).Perm (Multimap.items m ++ l) := by
  induction l generalizing m with
  | nil => simp
  | cons p l ih =>
    rw [List.foldl_cons]
    refine (ih _).trans ?_
    have := (items_add m p.1 p.2).append_right l
    simpa using this

theorem forall₂_perm {α β : Type} {R : α → β → Prop} {as as' : List α} (hp : as'.Perm as) : ∀ {bs : List β}, List.Forall₂ R as bs →
    ∃ bs', bs'.Perm bs ∧ List.Forall₂ R as' bs' := by
  induction hp with
  | nil => intro bs h; exact ⟨bs, .refl _, h⟩
  | cons a _ ih =>
    intro bs h
    cases h with
    | cons h1 h2 =>
      obtain ⟨bs', h3, h4⟩ := ih h2
      exact ⟨_, h3.cons _, .cons h1 h4⟩
  | swap a b l =>
    intro bs h
    cases h with
    | cons h1 h2 =>
      cases h2 with
      | cons h2 h3 => exact ⟨_, .swap _ _ _, .cons h2 (.cons h1 h3)⟩
  | trans _ _ ih1 ih2 =>
    intro bs h
    obtain ⟨bs', h1, h2⟩ := ih2 h
    obtain ⟨bs'', h3, h4⟩ := ih1 h2
    exact ⟨bs'', h3.trans h1, h4⟩

end Ion.Simple
