import Verif.NativeValues
import Verif.Props.Multimap
import Verif.Props.Equivalence
import Verif.Props.SameOutput
import Verif.TimestampLemmas
import Mathlib.Data.List.Induction
/-!
# C72: values made with `from_value`

Wrapping a Python value in an `IonPy…` class gives it a type and annotations, and changes nothing else.
-/
namespace Ion.Simple.Spec
open Ion Ion.Spec Ion.Simple

/-- The Python classes whose instances a class with Ion nature is for: the class that it extends, and texts for symbols and
`datetime`s for timestamps. -/
def IsFor : NatureCls → PyVal → Prop
  | .int, .int _ => True
  | .int, .bool _ => True
  | .float, .float _ => True
  | .decimal, .decimal _ => True
  | .decimal, .decimalSpecial _ => True
  | .text, .str _ => True
  | .bytes, .bytes _ => True
  | .symbol, .sym _ => True
  | .symbol, .str _ => True
  | .timestamp, .timestamp _ => True
  | _, _ => False

/-- A value that a program can have: tokens and timestamps come from their constructors. -/
def Constructed : PyVal → Prop
  | .sym k => ∃ text sid location, SymbolToken.new text sid location = .ok k
  | .timestamp (.ts t) => ∃ a, Timestamp.new a = .ok t
  | .timestamp (.dt d) => d.Valid
  | _ => True

/-- The last item of every key, in the order of the first ones: what `dict(items)` holds. -/
def lastItems (items : List (Option SymArg × PyObj)) : List (Option SymArg × PyObj) :=
  (MM.Spec.firstKeys items).flatMap fun k => ((MM.Spec.vals items k).getLast?.toList).map fun o => (k, o)

/-- Contents with Ion nature as a program can have them: truth values are 0 and 1, timestamps are `Timestamp`s. -/
def NatureVal : PyVal → Prop
  | .bool _ => False
  | .timestamp (.dt _) => False
  | v => Constructed v

/-- An object with Ion nature, as a program can have it, whose own fields, if it is a struct, have different names. -/
def HasNature : PyObj → Prop
  | .null _ _ => True
  | .scalar (.ion _ _) v => NatureVal v
  | .seq (.ion _ _) _ => True
  | .dict (.ion _ _) items => (items.map (·.1)).Nodup
  | _ => False

/-- A Python value without Ion nature that a class with Ion nature is for, of the given class; a dictionary has no key twice. -/
def PlainFor (cls : NatureCls) (c : Cls) : PyObj → Prop
  | .scalar k v => k = .plain c ∧ IsFor cls v ∧ Constructed v
  | .seq k _ => k = .plain c ∧ cls = .list
  | .dict k items => k = .plain c ∧ cls = .dict ∧ (items.map (·.1)).Nodup
  | _ => False

end Ion.Simple.Spec

namespace Ion.Simple
open Ion Ion.Spec Ion.Simple.Spec Ion.Equivalence.Spec Ion.Equivalence

/-- The constructor gives back a constructed timestamp. -/
theorem rebuild_made {a : TimestampArgs} {t : Timestamp} (h : Timestamp.new a = .ok t) : rebuildTime (.ts t) = .ok t := by
  obtain ⟨hv, -, -, -, -, -, -, -, -, -, hn⟩ := Timestamp.new_inv h
  exact Timestamp.new_frac hn hv

theorem normalise_micro {m : Nat} (hm : m < 1000000) :
    Timestamp.normalise (some (m : Int)) none none = .ok ((m : Int), 6, ⟨false, m, -6⟩) := by
  have h1 : (0 : Int) ≤ (m : Int) ∧ (m : Int) < 1000000 := ⟨by omega, by exact_mod_cast hm⟩
  have h2 : ((6 : Int) - 6).toNat = 0 := rfl
  have h3 : ((6 : Int) = 0) = False := by simp
  unfold Timestamp.normalise
  simp only [Option.getD_none, Option.isSome_none, Option.isSome_some, Bool.false_and, Bool.false_eq_true, if_false, pure, Except.pure, h2, h3,
    reduceCtorEq, decide_false, if_pos h1, Int.toNat_natCast, pow_zero, Nat.mod_one, if_true, Nat.div_one]

theorem new_of {a : TimestampArgs} {us : Nat} {f : Dec} {fp : Int}
    (hn : Timestamp.normalise a.micro a.fracPrecision a.frac = .ok ((us : Int), fp, f))
    (hv : (⟨a.year, a.month, a.day, a.hour, a.minute, a.second, us, a.tz⟩ : DateTime).Valid) :
    Timestamp.new a = .ok ⟨⟨a.year, a.month, a.day, a.hour, a.minute, a.second, us, a.tz⟩, a.precision, fp, f⟩ := by
  unfold Timestamp.new
  simp only [hn, bind, Except.bind, pure, Except.pure]
  rw [if_neg (by omega)]
  unfold DateTime.new
  simp [hv]

/-- A `datetime` becomes a `Timestamp` with microseconds. -/
theorem rebuild_dt {d : DateTime} (h : d.Valid) : rebuildTime (.dt d) = .ok (timeValue (.dt d)) :=
  new_of (a := ⟨d.year, d.month, d.day, d.hour, d.minute, d.second, some (d.micro : Int), d.tz, some .second, none, none⟩)
    (normalise_micro h.2.2.2.2.2.2.2.2.2) h

theorem rebuild_constructed {tv : Scalars.TimeVal} (h : Constructed (.timestamp tv)) :
    ∃ t, rebuildTime tv = .ok t ∧ timeValue (.ts t) = timeValue tv := by
  cases tv with
  | ts t =>
    obtain ⟨a, ha⟩ := h
    exact ⟨t, rebuild_made ha, rfl⟩
  | dt d => exact ⟨_, rebuild_dt h, rfl⟩

theorem rebuild_token {k : SymbolToken} (h : Constructed (.sym k)) : SymbolToken.new k.text k.sid k.location = .ok k := by
  obtain ⟨text, sid, location, hk⟩ := h
  unfold SymbolToken.new at hk ⊢
  split at hk
  · cases hk
  · cases hk
    rw [if_neg (by assumption)]

/-- **C72 (scalars)**: `from_value` of a class with Ion nature, with an Ion type, a Python value that the class is for, and
annotations, gives a value that stands for the same Ion scalar as the plain value does with this type, with these annotations. -/
theorem C72_scalar (cls : NatureCls) (ty : IonType) (k : Kind) (v : PyVal) (ann : List SymArg) (tupleAsSexp : Bool) (sym : SymArg → Option (Option Text))
    (f : Option (Option Text)) (a : List (Option Text)) (x : Scalar (Option Text))
    (hsym : ∀ t, sym (.tok ⟨some t, none, none⟩) = sym (.text t))
    (hv : IsFor cls v) (hc : Constructed v) (hcls : cls = .symbol → ty = .symbol) (ha : allSome sym ann = some a) (hx : scalarOf sym ty v = some x) :
    ∃ o, fromValue cls ty (.scalar k v) ann = some (.ok o) ∧ IsValue tupleAsSexp sym f o (.scalar f a x) := by
  have mk : ∀ w, scalarOf sym ty w = some x → IsValue tupleAsSexp sym f (.scalar (.ion (some ty) ann) w) (.scalar f a x) :=
    fun w hw => .scalar f _ w ty ann a x (.ion ty ann) ha hw
  cases cls <;> cases v <;> simp only [IsFor] at hv
  case int.bool b =>
    refine ⟨_, rfl, mk _ ?_⟩
    cases ty <;> simp [scalarOf, denote, asSymbol] at hx ⊢
    cases b <;> simp_all
  case symbol.sym s =>
    refine ⟨.scalar (.ion (some ty) ann) (.sym s), ?_, mk _ hx⟩
    simp only [fromValue, natureOf, rebuild_token hc]
  case symbol.str t =>
    refine ⟨.scalar (.ion (some ty) ann) (.sym ⟨some t, none, none⟩), rfl, mk _ ?_⟩
    obtain rfl := hcls rfl
    simpa [scalarOf, asSymbol, hsym] using hx
  case timestamp.timestamp tv =>
    obtain ⟨t, ht, he⟩ := rebuild_constructed hc
    refine ⟨.scalar (.ion (some ty) ann) (.timestamp (.ts t)), ?_, mk _ ?_⟩
    · simp only [fromValue, natureOf, ht]
    · cases ty <;> simp [scalarOf, denote, asSymbol] at hx ⊢
      rw [he]; exact hx
  all_goals exact ⟨_, rfl, mk _ hx⟩

/-- The theorem applies to a text made a symbol, with an annotation, and to `True`. -/
example : IsFor .symbol (.str [97]) ∧ Constructed (.str [97]) ∧ allSome seenText [.text [98]] = some [some [98]] ∧
    scalarOf seenText .symbol (.str [97]) = some (.symbol (some [97])) ∧ (∀ t, seenText (.tok ⟨some t, none, none⟩) = seenText (.text t)) ∧
    IsFor .int (.bool true) ∧ scalarOf seenText .bool (.bool true) = some (.bool true) :=
  ⟨trivial, trivial, rfl, rfl, fun _ => rfl, trivial, rfl⟩

/-- **C72 (`None`)**: the null of the given type, with the annotations, whatever the class. -/
theorem C72_none (cls : NatureCls) (ty : IonType) (ann : List SymArg) (tupleAsSexp : Bool) (sym : SymArg → Option (Option Text))
    (f : Option (Option Text)) (a : List (Option Text)) (ha : allSome sym ann = some a) :
    ∃ o, fromValue cls ty .none ann = some (.ok o) ∧ IsValue tupleAsSexp sym f o (.scalar f a (.null ty)) :=
  ⟨_, by cases cls <;> rfl, .null f ty ann a ha⟩

/-- **C72 (lists and S-expressions)**: the elements are the same. -/
theorem C72_sequence (ty : CType) (k : Kind) (elems : List PyObj) (ann : List SymArg) (tupleAsSexp : Bool) (sym : SymArg → Option (Option Text))
    (f : Option (Option Text)) (a : List (Option Text)) (ns : List Val) (hty : ty ≠ .struct) (ha : allSome sym ann = some a)
    (hn : AreValues tupleAsSexp sym elems ns) :
    ∃ o, fromValue .list ty.ty (.seq k elems) ann = some (.ok o) ∧ IsValue tupleAsSexp sym f o (.cont f a ty ns) :=
  ⟨_, rfl, .seq f _ elems ty ann a ns (.ion _ ann) hty ha hn⟩

section Items
variable {κ ν : Type} [DecidableEq κ]

/-- Items set one after the other. -/
private def setAll (items : List (κ × ν)) : List (κ × ν) := items.foldl (fun l p => MM.Spec.setPair l p.1 p.2) []

private theorem rel_new (items : List (κ × ν)) : MM.Rel (Multimap.new items) (setAll items) := by
  induction items using List.reverseRecOn with
  | nil => exact MM.rel_empty
  | append_singleton items p ih =>
    have := (MM.rel_step ih (.set p.1 p.2)).2
    simpa [Multimap.new, setAll, List.foldl_append, MM.step, MM.Spec.step] using this

private theorem keys_setAll (items : List (κ × ν)) : MM.Spec.firstKeys (setAll items) = MM.Spec.firstKeys items := by
  induction items using List.reverseRecOn with
  | nil => rfl
  | append_singleton items p ih =>
    obtain ⟨k, v⟩ := p
    have : setAll (items ++ [(k, v)]) = MM.Spec.setPair (setAll items) k v := by simp [setAll, List.foldl_append]
    rw [this, MM.firstKeys_setPair, MM.firstKeys_append, ih]

private theorem vals_setAll (items : List (κ × ν)) (k : κ) : MM.Spec.vals (setAll items) k = (MM.Spec.vals items k).getLast?.toList := by
  induction items using List.reverseRecOn with
  | nil => rfl
  | append_singleton items p ih =>
    obtain ⟨k', v⟩ := p
    have : setAll (items ++ [(k', v)]) = MM.Spec.setPair (setAll items) k' v := by simp [setAll, List.foldl_append]
    rw [this, MM.vals_setPair, MM.vals_append, ih]
    by_cases h : k = k'
    · subst h; simp [MM.Spec.vals]
    · simp [MM.Spec.vals, h, Ne.symm h]

theorem items_new (items : List (κ × ν)) : (Multimap.new items).items =
    (MM.Spec.firstKeys items).flatMap fun k => ((MM.Spec.vals items k).getLast?.toList).map fun v => (k, v) := by
  have h := (MM.rel_step (rel_new items) .items).1
  simp only [MM.step, MM.Spec.step, MM.Out.items.injEq] at h
  rw [h, keys_setAll]
  simp only [vals_setAll]

theorem items_new_nodup (items : List (κ × ν)) (hn : (items.map (·.1)).Nodup) : (Multimap.new items).items = items := by
  rw [items_new]
  induction items with
  | nil => rfl
  | cons p items ih =>
    obtain ⟨k, v⟩ := p
    simp only [List.map_cons, List.nodup_cons] at hn
    have hk : ∀ x, (k, x) ∉ items := fun x hx => hn.1 (List.mem_map_of_mem (f := (·.1)) hx)
    have hvk : MM.Spec.vals items k = [] := by
      simp only [MM.Spec.vals, List.map_eq_nil_iff, List.filter_eq_nil_iff, decide_eq_true_eq]
      rintro ⟨k', v'⟩ hm rfl
      exact hk _ hm
    have hf : (MM.Spec.firstKeys items).filter (· ≠ k) = MM.Spec.firstKeys items := by
      rw [List.filter_eq_self]
      intro a ha
      simp only [decide_eq_true_eq]
      rintro rfl
      exact (MM.vals_nil_iff items a).1 hvk ha
    rw [MM.Spec.firstKeys, hf, List.flatMap_cons]
    have h1 : MM.Spec.vals ((k, v) :: items) k = [v] := by
      have : MM.Spec.vals ((k, v) :: items) k = v :: MM.Spec.vals items k := by simp [MM.Spec.vals]
      rw [this, hvk]
    have h2 : ∀ a ∈ MM.Spec.firstKeys items, MM.Spec.vals ((k, v) :: items) a = MM.Spec.vals items a := by
      intro a ha
      have : k ≠ a := by
        rintro rfl
        exact (MM.vals_nil_iff items k).1 hvk ha
      simp [MM.Spec.vals, this]
    rw [h1]
    have ih' := ih hn.2
    rw [List.flatMap_congr (g := fun a => ((MM.Spec.vals items a).getLast?.toList).map fun v => (a, v))]
    · rw [ih']; rfl
    · intro a ha
      rw [h2 a ha]
end Items

/-- **C72 (structs)**: of every field name the last value is kept, at the place of the first; where no name is repeated, which a
plain dictionary ensures, these are all fields, in their order. -/
theorem C72_struct (k : Kind) (items : List (Option SymArg × PyObj)) (ann : List SymArg) (tupleAsSexp : Bool) (sym : SymArg → Option (Option Text))
    (f : Option (Option Text)) (a : List (Option Text)) (ns : List Val) (ha : allSome sym ann = some a)
    (hn : AreFields tupleAsSexp sym (lastItems items) ns) :
    ∃ o, fromValue .dict .struct (.dict k items) ann = some (.ok o) ∧ IsValue tupleAsSexp sym f o (.cont f a .struct ns) ∧
      ((items.map (·.1)).Nodup → lastItems items = items) := by
  refine ⟨.dict (.ion (some .struct) ann) (lastItems items), ?_, .dict f _ _ ann a ns (.ion _ ann) ha hn, fun h => ?_⟩
  · simp only [fromValue, natureOf, items_new]
    rfl
  · rw [lastItems, ← items_new, items_new_nodup _ h]

/-- The theorem applies to a dictionary with two fields. -/
example : AreFields false seenText (lastItems [(some (.text [98]), .none), (some (.text [97]), .null (some .int) [])])
    [.scalar (some (some [98])) [] (.null .null), .scalar (some (some [97])) [] (.null .int)] := by
  have : lastItems [(some (.text [98]), .none), (some (.text [97]), .null (some .int) [])] =
      [(some (.text [98]), PyObj.none), (some (.text [97]), .null (some .int) [])] := by
    rw [lastItems, ← items_new, items_new_nodup _ (by decide)]
  rw [this]
  exact .cons _ _ _ _ _ _ (.text _ (.inl (by simp))) (.none _) (.cons _ _ _ _ _ _ (.text _ (.inl (by simp))) (.null _ _ _ _ rfl) .nil)

/-- **C72** (`_copy`): a copy has the same contents, Ion type and annotations.  Missing: structs with a repeated field name, see
`C72_repeated_fields_lost`. -/
theorem C72_copy_partial (o : PyObj) (h : HasNature o) : copy o = some (.ok o) := by
  cases o with
  | none => exact absurd h id
  | null ty ann => rfl
  | other c => exact absurd h id
  | scalar k v =>
    cases k with
    | plain => exact absurd h id
    | ion ty ann =>
      have h : NatureVal v := h
      cases v with
      | bool => exact absurd h id
      | sym s =>
        simp only [copy, natureClass, natureOf, rebuild_token (h : Constructed (.sym s))]
      | timestamp tv =>
        cases tv with
        | dt => exact absurd h id
        | ts t =>
          obtain ⟨a, ha⟩ : Constructed (.timestamp (.ts t)) := h
          simp only [copy, natureClass, natureOf, rebuild_made ha]
      | _ => rfl
  | seq k elems => cases k with | plain => exact absurd h id | ion => rfl
  | dict k items =>
    cases k with
    | plain => exact absurd h id
    | ion ty ann => simp only [copy, natureOf, items_new_nodup _ (show (items.map (·.1)).Nodup from h)]

/-- The theorem applies to an annotated timestamp, a token, and a list of anything. -/
example : HasNature (.scalar (.ion (some .timestamp) [.text [97]]) (.timestamp (.ts ⟨⟨2001, 2, 3, 4, 5, 6, 0, some 0⟩, some .second, 0, ⟨false, 0, 0⟩⟩))) ∧
    HasNature (.scalar (.ion none []) (.sym ⟨some [97], none, none⟩)) ∧ HasNature (.seq (.ion (some .sexp) []) [.other .object]) :=
  ⟨⟨⟨2001, 2, 3, 4, 5, 6, none, some 0, some .second, none, some ⟨false, 0, 0⟩⟩, by decide⟩, ⟨some [97], none, none, rfl⟩, trivial⟩

/-- **C72** (`_copy`, compared): whatever can be compared with `ion_equals` equals its copy. -/
theorem C72_copy_equal_partial (o : PyObj) (h : HasNature o) (hc : Comparable o) (instantsOnly : Bool) :
    ∃ o', copy o = some (.ok o') ∧ ionEquals instantsOnly o o' = true :=
  ⟨o, C72_copy_partial o h, C31_reflexive_partial instantsOnly o hc⟩

/-- The struct `{a: null.int, a: null.bool}`, as `load` returns it. -/
def twice : PyObj := .dict (.ion (some .struct) []) [(some (.text [97]), .null (some .int) []), (some (.text [97]), .null (some .bool) [])]

/-- **C72** (negative).  A struct may repeat a field name, and `IonPyDict` can hold such a struct; but `_copy` and `from_value` keep
only the last value: of `{a: null.int, a: null.bool}` they make `{a: null.bool}`, which is another value, and not equal. -/
theorem C72_repeated_fields_lost : ∃ o, copy twice = some (.ok o) ∧ fromValue .dict .struct twice = some (.ok o) ∧
    o = .dict (.ion (some .struct) []) [(some (.text [97]), .null (some .bool) [])] ∧
    (∀ instantsOnly, ionEquals instantsOnly twice o = false) ∧
    IsValue false seenText none twice (.cont none [] .struct [.scalar (some (some [97])) [] (.null .int), .scalar (some (some [97])) [] (.null .bool)]) ∧
    IsValue false seenText none o (.cont none [] .struct [.scalar (some (some [97])) [] (.null .bool)]) := by
  have field : ∀ (f : List Nat) (ty : IonType), IsValue false seenText (some (some f)) (.null (some ty) []) (.scalar (some (some f)) [] (.null ty)) :=
    fun f ty => .null _ _ _ _ rfl
  refine ⟨_, rfl, rfl, rfl, ?_, ?_, ?_⟩
  · intro b
    cases b <;> rfl
  · exact .dict _ _ _ [] _ _ (.ion _ _) rfl (.cons _ _ _ _ _ _ (.text _ (.inl (by simp))) (field _ _) (.cons _ _ _ _ _ _ (.text _ (.inl (by simp))) (field _ _) .nil))
  · exact .dict _ _ _ [] _ _ (.ion _ _) rfl (.cons _ _ _ _ _ _ (.text _ (.inl (by simp))) (field _ _) .nil)

/-- **C72** (again): a value made with `from_value` can be given another type and other annotations; the old ones leave no trace. -/
theorem C72_again (cls : NatureCls) (ty ty' : IonType) (k : Kind) (v : PyVal) (ann ann' : List SymArg) (hv : IsFor cls v) (hc : Constructed v) :
    ∃ o, fromValue cls ty (.scalar k v) ann = some (.ok o) ∧ fromValue cls ty' o ann' = fromValue cls ty' (.scalar k v) ann' := by
  cases cls <;> cases v <;> simp only [IsFor] at hv
  case symbol.sym s =>
    refine ⟨.scalar (.ion (some ty) ann) (.sym s), ?_, rfl⟩
    simp only [fromValue, natureOf, rebuild_token hc]
  case timestamp.timestamp tv =>
    cases tv with
    | ts t =>
      obtain ⟨a, ha⟩ := hc
      refine ⟨.scalar (.ion (some ty) ann) (.timestamp (.ts t)), ?_, rfl⟩
      simp only [fromValue, natureOf, rebuild_made ha]
    | dt d =>
      have hd := rebuild_dt hc
      refine ⟨.scalar (.ion (some ty) ann) (.timestamp (.ts (timeValue (.dt d)))), ?_, ?_⟩
      · simp only [fromValue, natureOf, hd]
      · simp only [fromValue, natureOf, rebuild_made hd, hd]
  all_goals exact ⟨_, rfl, rfl⟩

theorem documented_unique {b : Bool} {c : Cls} {ty ty' : IonType} (h : Documented b c ty) (h' : Documented b c ty') : ty = ty' := by
  obtain ⟨hn, h⟩ := h
  cases hc : nearest b c with
  | nil => exact absurd hc hn
  | cons t ts => rw [← h t (by rw [hc]; simp), ← h'.2 t (by rw [hc]; simp)]

/-- The wrapped object means the same value; its symbols and timestamps are as before. -/
theorem wrapped {cls : NatureCls} {c : Cls} {ty : IonType} {value : PyObj} {n : Val} {b : Bool} (hf : PlainFor cls c value) (hd : Documented b c ty)
    (hcls : cls = .symbol → ty = .symbol) (hn : IsValue b seenText none value n) :
    ∃ o, fromValue cls ty value = some (.ok o) ∧ IsValue b seenText none o n ∧ (SymbolsByText [value] → SymbolsByText [o]) ∧
      (OrdinaryTimes [value] → OrdinaryTimes [o]) ∧ (TextTimes [value] → TextTimes [o]) := by
  cases hn with
  | none => exact absurd hf id
  | null => exact absurd hf id
  | scalar _ k v ty' ann a x ht ha hx =>
    obtain ⟨rfl, hv, hc⟩ := hf
    cases ht with
    | plain _ _ hd' =>
      obtain rfl := documented_unique hd hd'
      cases ha
      obtain ⟨o, ho, hm⟩ := C72_scalar cls ty (.plain c) v [] b seenText none [] x (fun _ => rfl) hv hc hcls rfl hx
      refine ⟨o, ho, hm, ?_⟩
      cases cls <;> cases v <;> simp only [IsFor] at hv
      case symbol.sym s =>
        simp only [fromValue, natureOf, rebuild_token hc, Option.some.injEq, Except.ok.injEq] at ho
        subst ho
        exact ⟨id, id, id⟩
      case symbol.str t =>
        cases ho
        refine ⟨fun _ e he => ?_, fun _ w hw => ?_, fun _ w hw => ?_⟩
        · simp [symbolsInAll, symbolsIn, asSymbol] at he
          subst he
          intro h; cases h
        · simp [valuesInAll, valuesIn] at hw
          subst hw
          intro tv h; cases h
        · simp [valuesInAll, valuesIn] at hw
          subst hw
          intro tv h; cases h
      case timestamp.timestamp tv =>
        cases tv with
        | ts t =>
          obtain ⟨a, ha⟩ := hc
          simp only [fromValue, natureOf, rebuild_made ha, Option.some.injEq, Except.ok.injEq] at ho
          subst ho
          exact ⟨id, id, id⟩
        | dt d =>
          simp only [fromValue, natureOf, rebuild_dt hc, Option.some.injEq, Except.ok.injEq] at ho
          subst ho
          refine ⟨fun _ e he => ?_, fun _ w hw => ?_, fun _ w hw => ?_⟩
          · simp [symbolsInAll, symbolsIn, asSymbol] at he
          · simp [valuesInAll, valuesIn] at hw
            subst hw
            intro tv h; cases h
            exact .inr rfl
          · simp [valuesInAll, valuesIn] at hw
            subst hw
            intro tv h; cases h
            simp [timeValue]
      case int.bool t =>
        cases ho
        refine ⟨fun _ e he => ?_, fun _ w hw => ?_, fun _ w hw => ?_⟩
        · simp [symbolsInAll, symbolsIn, asSymbol] at he
        · simp [valuesInAll, valuesIn] at hw
          subst hw
          intro tv h; cases h
        · simp [valuesInAll, valuesIn] at hw
          subst hw
          intro tv h; cases h
      all_goals (cases ho; exact ⟨id, id, id⟩)
  | seq _ k elems ct ann a ns ht hs ha hns =>
    obtain ⟨rfl, rfl⟩ := hf
    cases ht with
    | plain _ _ hd' =>
      obtain rfl := documented_unique hd hd'
      cases ha
      exact ⟨_, rfl, .seq none _ elems ct [] [] ns (.ion _ []) hs rfl hns, id, id, id⟩
  | dict _ k items ann a ns ht ha hns =>
    obtain ⟨rfl, rfl, hk⟩ := hf
    cases ht with
    | plain _ _ hd' =>
      obtain rfl := documented_unique hd hd'
      cases ha
      refine ⟨.dict (.ion (some .struct) []) items, ?_, .dict none _ items [] [] ns (.ion _ []) rfl hns, id, id, id⟩
      simp only [fromValue, natureOf, items_new_nodup _ hk]

/-- **C72** (no trace in the output): a Python value wrapped with the Ion type that it has anyway, and without annotations, is dumped
like the value itself, in binary and in text. -/
theorem C72_same_output (cls : NatureCls) (c : Cls) (ty : IonType) (value : PyObj) (n : Val) (tupleAsSexp : Bool) (hf : PlainFor cls c value)
    (hd : Documented tupleAsSexp c ty) (hcls : cls = .symbol → ty = .symbol) (hn : IsValue tupleAsSexp seenText none value n) (hs : SymbolsByText [value]) :
    ∃ o, fromValue cls ty value = some (.ok o) ∧
      (OrdinaryTimes [value] → ∀ imports, dumps imports false tupleAsSexp o = dumps imports false tupleAsSexp value) ∧
      (TextTimes [value] → ∀ F indent noMarker, dumpsText F indent noMarker false tupleAsSexp o = dumpsText F indent noMarker false tupleAsSexp value) := by
  obtain ⟨o, ho, hm, h1, h2, h3⟩ := wrapped hf hd hcls hn
  exact ⟨o, ho, fun ht imports => (C67_same_values_same_bytes imports false false tupleAsSexp tupleAsSexp o value [n] (.cons _ _ _ _ hm .nil)
      (.cons _ _ _ _ hn .nil) (h1 hs) hs (h2 ht) ht).2,
    fun ht F indent noMarker => (C67_same_values_same_text F indent noMarker false false tupleAsSexp tupleAsSexp o value [n] (.cons _ _ _ _ hm .nil)
      (.cons _ _ _ _ hn .nil) (h1 hs) hs (h3 ht) ht).2⟩

/-- The theorem applies to `{'a': True}`, and to a text. -/
example : PlainFor .dict .dict (.dict (.plain .dict) [(some (.text [97]), .scalar (.plain .bool) (.bool true))]) ∧ Documented false .dict .struct ∧
    IsValue false seenText none (.dict (.plain .dict) [(some (.text [97]), .scalar (.plain .bool) (.bool true))])
      (.cont none [] .struct [.scalar (some (some [97])) [] (.bool true)]) ∧
    SymbolsByText [.dict (.plain .dict) [(some (.text [97]), .scalar (.plain .bool) (.bool true))]] ∧
    PlainFor .text .text (.scalar (.plain .text) (.str [97])) ∧ Documented false .text .string := by
  have dd : Documented false .dict .struct := ⟨by simp [nearest], by simp [nearest]⟩
  have db : Documented false .bool .bool := ⟨by simp [nearest], by simp [nearest]⟩
  refine ⟨⟨rfl, rfl, by simp⟩, dd, ?_, ?_, ⟨rfl, trivial, trivial⟩, ⟨by simp [nearest], by simp [nearest]⟩⟩
  · exact .dict _ _ _ [] _ _ (.plain _ _ dd) rfl (.cons _ _ _ _ _ _ (.text _ (.inl (by simp))) (.scalar _ _ _ _ [] [] _ (.plain _ _ db) rfl rfl) .nil)
  · intro a ha
    simp [symbolsInAll, symbolsIn, symbolsInItems, asSymbol] at ha
    subst ha
    trivial

end Ion.Simple
