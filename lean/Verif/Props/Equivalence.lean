import Verif.Equivalence
import Verif.EquivalenceSpec
import Verif.Props.RoundTrip
import Mathlib.Tactic.NormNum
import Mathlib.Tactic.Linarith
import Mathlib.Data.List.Nodup
import Mathlib.Data.List.Perm.Subperm
set_option linter.unusedSimpArgs false
/-!
# Properties C31 and C32: `ion_equals`
-/
namespace Ion.Equivalence
open Ion Ion.Simple Ion.Equivalence.Spec
open Ion.Spec (seenText IsTimeValue Scalar CType denote)

/-! ## Symmetry -/

theorem floatEq_comm (x y : UInt64) : floatEq x y = floatEq y x := by
  simp only [floatEq]
  rw [show decide (x = y) = decide (y = x) from by simp [eq_comm]]
  cases isNaN x <;> cases isNaN y <;> cases isZero x <;> cases isZero y <;> simp

theorem dateTimeEq_comm (a b : DateTime) : dateTimeEq a b = dateTimeEq b a := by
  unfold dateTimeEq
  cases ha : a.tz <;> cases hb : b.tz <;> simp [eq_comm]

theorem numEq_comm (v w : Option ℚ) : numEq v w = numEq w v := by
  cases v <;> cases w <;> simp [numEq, eq_comm]

theorem valEq_comm (v w : PyVal) : valEq v w = valEq w v := by
  cases v <;> cases w <;>
    simp only [valEq] <;>
    first
    | exact numEq_comm _ _
    | exact floatEq_comm _ _
    | exact dateTimeEq_comm _ _
    | simp only [eq_comm]

theorem allEq_comm {eq : PyObj → PyObj → Bool} {xs : List PyObj} : ∀ {ys : List PyObj}, (∀ x ∈ xs, ∀ y ∈ ys, eq x y = eq y x) →
    allEq eq xs ys = allEq eq ys xs := by
  induction xs with
  | nil => intro ys _; cases ys <;> rfl
  | cons x xs ih =>
    intro ys h
    cases ys with
    | nil => rfl
    | cons y ys =>
      simp only [allEq]
      rw [h x (by simp) y (by simp), ih (fun x hx y hy => h x (by simp [hx]) y (by simp [hy]))]

theorem pyEqStep_comm {eq : PyObj → PyObj → Bool} (h : ∀ x y, eq x y = eq y x) (a b : PyObj) : pyEqStep eq a b = pyEqStep eq b a := by
  cases a <;> cases b <;> simp only [pyEqStep]
  · exact valEq_comm _ _
  · rw [allEq_comm (fun x _ y _ => h x y)]
    simp only [eq_comm]
  · exact Bool.and_comm _ _

theorem pyEq_comm (n : Nat) : ∀ a b, pyEq n a b = pyEq n b a := by
  induction n with
  | zero => intro a b; rfl
  | succ n ih => exact pyEqStep_comm ih

theorem symbolsEq_comm (a b : SymArg) : symbolsEq a b = symbolsEq b a := by
  unfold symbolsEq
  by_cases h : symText a = symText b
  · rw [if_pos h, if_pos h.symm, ← h]
    by_cases h1 : symText a = none
    · rw [if_pos h1, if_pos h1]
      by_cases h2 : symLocation a = symLocation b
      · rw [if_neg (not_not.mpr h2), if_neg (not_not.mpr h2.symm)]
        by_cases h3 : symSid a = some 0 <;> by_cases h4 : symSid b = some 0 <;> simp [h3, h4]
      · rw [if_pos h2, if_pos (fun e => h2 e.symm)]
    · rw [if_neg h1, if_neg h1]
  · rw [if_neg h, if_neg (fun e => h e.symm)]

theorem annotationsEq_comm (xs : List SymArg) : ∀ ys, annotationsEq xs ys = annotationsEq ys xs := by
  induction xs with
  | nil => intro ys; cases ys <;> rfl
  | cons x xs ih =>
    intro ys
    cases ys with
    | nil => rfl
    | cons y ys => simp only [annotationsEq]; rw [symbolsEq_comm, ih]

theorem precisionEq_comm (a b : Scalars.TimeVal) : precisionEq a b = precisionEq b a := by
  cases a <;> cases b <;> simp only [precisionEq, eq_comm]

theorem timestampsEq_comm (a b : Scalars.TimeVal) : timestampsEq a b = timestampsEq b a := by
  unfold timestampsEq
  rw [precisionEq_comm, dateTimeEq_comm]
  simp only [eq_comm]

theorem instantsEq_comm (a b : Scalars.TimeVal) : instantsEq a b = instantsEq b a := dateTimeEq_comm _ _

theorem compareTotal_comm (a b : Dec) : (compareTotal a b = 0) ↔ (compareTotal b a = 0) := by
  unfold compareTotal
  cases a.sign <;> cases b.sign <;> simp <;> split_ifs <;> simp_all <;> omega

theorem structsEq_comm (eq : PyObj → PyObj → Bool) (k l : Kind) (xs ys : Items) :
    structsEq eq k xs (.dict l ys) = structsEq eq l ys (.dict k xs) := by
  simp only [structsEq]
  rw [Bool.and_comm (isMultimap k) (isMultimap l), show decide (xs.length = ys.length) = decide (ys.length = xs.length) from by simp [eq_comm],
    Bool.and_assoc, Bool.and_assoc, Bool.and_comm (structIn eq (isMultimap l && isMultimap k) xs ys)]

theorem decimalsEq_comm (k l : Kind) (a b : Dec) : decimalsEq a (.scalar k (.decimal b)) = decimalsEq b (.scalar l (.decimal a)) := by
  simp only [decimalsEq]
  by_cases h : a.coeff = 0 ∧ b.coeff = 0 ∧ a.sign ≠ b.sign
  · rw [if_pos h, if_pos ⟨h.2.1, h.1, fun e => h.2.2 e.symm⟩]
  · rw [if_neg h, if_neg (fun e => h ⟨e.2.1, e.1, fun e' => e.2.2 e'.symm⟩)]
    simp only [compareTotal_comm a b]

theorem floatsEq_comm (k l : Kind) (a b : UInt64) : floatsEq a (.scalar k (.float b)) = floatsEq b (.scalar l (.float a)) := by
  simp only [floatsEq, floatEq_comm a b]
  cases isZero a <;> cases isZero b <;> cases isNaN a <;> cases isNaN b <;> simp [Bool.beq_comm]

theorem timesEqObj_comm (m : Bool) (k l : Kind) (a b : Scalars.TimeVal) :
    timesEqObj m a (.scalar k (.timestamp b)) = timesEqObj m b (.scalar l (.timestamp a)) := by
  simp only [timesEqObj, timestampsEq_comm a b, instantsEq_comm a b]

/-- The parts that `ion_equals` compares in the order they have in a sequence. -/
def parts : PyObj → List PyObj
  | .seq _ xs => xs
  | _ => []

theorem natureEq_comm {m : Bool} {eq py : PyObj → PyObj → Bool} {a b : PyObj} (ha : isIon a = true) (hb : isIon b = true)
    (hta : WellTyped a) (htb : WellTyped b) (hty : ionTypeOf a = ionTypeOf b) (hpy : ∀ x y, py x y = py y x)
    (hpn : ∀ x ty ann, py x (.null ty ann) = false)
    (heq : ∀ x ∈ parts a, ∀ y ∈ parts b, eq x y = eq y x) : natureEq m eq py a b = natureEq m eq py b a := by
  cases a with
  | none => simp [isIon] at ha
  | other => simp [isIon] at ha
  | null ty ann =>
    cases b with
    | none => simp [isIon] at hb
    | other => simp [isIon] at hb
    | null ty' ann' => rfl
    | scalar k v =>
      cases v <;> simp [natureEq, decimalsEq, floatsEq, timesEqObj, symbolsEqObj, symOf, hpn]
    | seq k xs => simp [natureEq, sequencesEq]
    | dict k xs => simp [natureEq, structsEq]
  | scalar k v =>
    cases k with
    | plain c => simp [isIon] at ha
    | ion ty ann =>
      cases b with
      | none => simp [isIon] at hb
      | other => simp [isIon] at hb
      | null ty' ann' =>
        cases v <;> simp [natureEq, decimalsEq, floatsEq, timesEqObj, symbolsEqObj, symOf, hpn]
      | scalar l w =>
        cases l with
        | plain c => simp [isIon] at hb
        | ion ty' ann' =>
          simp only [ionTypeOf] at hty
          subst hty
          simp only [WellTyped] at hta htb
          cases v <;> cases w <;> cases ty with
          | none => simp [Fits] at hta
          | some t =>
            cases t <;> simp [Fits] at hta htb <;>
            simp only [natureEq] <;>
            first
            | exact hpy _ _
            | exact floatsEq_comm _ _ _ _
            | exact decimalsEq_comm _ _ _ _
            | exact timesEqObj_comm _ _ _ _ _
            | (simp only [ionTypeOf, symbolsEqObj, symOf, if_true]; exact symbolsEq_comm _ _)
      | seq l ys =>
        cases l with
        | plain c => simp [isIon] at hb
        | ion ty' ann' =>
          simp only [ionTypeOf] at hty
          subst hty
          simp only [WellTyped] at hta htb
          rcases htb.1 with rfl | rfl <;> cases v <;> simp [Fits] at hta
      | dict l ys =>
        cases l with
        | plain c => simp [isIon] at hb
        | ion ty' ann' =>
          simp only [ionTypeOf] at hty
          subst hty
          simp only [WellTyped] at hta htb
          rw [htb.1] at hta; cases v <;> simp [Fits] at hta
  | seq k xs =>
    cases k with
    | plain c => simp [isIon] at ha
    | ion ty ann =>
      cases b with
      | none => simp [isIon] at hb
      | other => simp [isIon] at hb
      | null ty' ann' => simp [natureEq, sequencesEq]
      | scalar l w =>
        cases l with
        | plain c => simp [isIon] at hb
        | ion ty' ann' =>
          simp only [ionTypeOf] at hty
          subst hty
          simp only [WellTyped] at hta htb
          rcases hta.1 with rfl | rfl <;> cases w <;> simp [Fits] at htb
      | seq l ys =>
        simp only [natureEq, sequencesEq]
        exact allEq_comm heq
      | dict l ys => simp [natureEq, sequencesEq, structsEq]
  | dict k xs =>
    cases k with
    | plain c => simp [isIon] at ha
    | ion ty ann =>
      cases b with
      | none => simp [isIon] at hb
      | other => simp [isIon] at hb
      | null ty' ann' => simp [natureEq, structsEq]
      | scalar l w =>
        cases l with
        | plain c => simp [isIon] at hb
        | ion ty' ann' =>
          simp only [ionTypeOf] at hty
          subst hty
          simp only [WellTyped] at hta htb
          rw [hta.1] at htb; cases w <;> simp [Fits] at htb
      | seq l ys => simp [natureEq, sequencesEq, structsEq]
      | dict l ys => simp only [natureEq]; exact structsEq_comm _ _ _ _ _

theorem secondLoop_comm {m : Bool} {eq : PyObj → PyObj → Bool} {a b : PyObj} {r s : Bool} (ha : isIon a = false) (hb : isIon b = false)
    (heq : ∀ x ∈ parts a, ∀ y ∈ parts b, eq x y = eq y x) (hr : secondLoop m eq a b = some r) (hs : secondLoop m eq b a = some s) : r = s := by
  have key : (secondLoop m eq a b).isSome = true → (secondLoop m eq b a).isSome = true → secondLoop m eq a b = secondLoop m eq b a := by
    cases a with
    | none => simp [secondLoop]
    | other => simp [secondLoop]
    | null => simp [secondLoop]
    | scalar k v =>
      cases b with
      | none => cases v <;> simp [secondLoop]
      | other => cases v <;> simp [secondLoop]
      | null => cases v <;> simp [secondLoop]
      | scalar l w =>
        cases v <;> cases w <;> simp only [secondLoop, Option.isSome_some, Option.isSome_none, Bool.false_eq_true, false_imp_iff, imp_self, implies_true, forall_const, Option.some.injEq] <;>
          first
          | rfl
          | exact decimalsEq_comm k l _ _
          | exact floatsEq_comm k l _ _
          | exact timesEqObj_comm m k l _ _
          | exact symbolsEq_comm _ _
      | seq l ys => cases v <;> simp [secondLoop, decimalsEq, floatsEq, timesEqObj, symbolsEqObj, symOf, sequencesEq]
      | dict l ys => cases v <;> simp [secondLoop, decimalsEq, floatsEq, timesEqObj, symbolsEqObj, symOf, structsEq]
    | seq k xs =>
      cases b with
      | none => simp [secondLoop]
      | other => simp [secondLoop]
      | null => simp [secondLoop]
      | scalar l w => cases w <;> simp [secondLoop, decimalsEq, floatsEq, timesEqObj, symbolsEqObj, symOf, sequencesEq]
      | seq l ys =>
        intro h1 h2
        simp only [secondLoop] at h1 h2 ⊢
        cases hk : isListKind k <;> cases hl : isListKind l <;> simp [hk, hl, sequencesEq] at h1 h2 ⊢
        exact allEq_comm heq
      | dict l ys => simp [secondLoop, structsEq, sequencesEq]
    | dict k xs =>
      cases b with
      | none => simp [secondLoop]
      | other => simp [secondLoop]
      | null => simp [secondLoop]
      | scalar l w => cases w <;> simp [secondLoop, decimalsEq, floatsEq, timesEqObj, symbolsEqObj, symOf, structsEq]
      | seq l ys => simp [secondLoop, structsEq, sequencesEq]
      | dict l ys => intro _ _; simp only [secondLoop, Option.some.injEq]; exact structsEq_comm _ _ _ _ _
  have := key (by simp [hr]) (by simp [hs])
  rw [hr, hs] at this
  exact Option.some.inj this

theorem step_comm {m : Bool} {eq py : PyObj → PyObj → Bool} {a b : PyObj} (hta : WellTyped a) (htb : WellTyped b)
    (hpy : ∀ x y, py x y = py y x) (hpn : ∀ x ty ann, py x (.null ty ann) = false)
    (heq : ∀ x ∈ parts a, ∀ y ∈ parts b, eq x y = eq y x) : equalsStep m eq py a b = equalsStep m eq py b a := by
  unfold equalsStep
  cases ha : isIon a <;> cases hb : isIon b
  · simp only [Bool.false_eq_true, if_false]
    cases h1 : secondLoop m eq a b with
    | none => cases h2 : secondLoop m eq b a with
      | none => exact hpy _ _
      | some s => rfl
    | some r => cases h2 : secondLoop m eq b a with
      | none => rfl
      | some s => exact (secondLoop_comm ha hb heq h1 h2).symm
  · simp
  · simp
  · simp only [if_true, firstLoop, ha, hb]
    rw [annotationsEq_comm (annotationsOf b)]
    by_cases hty : ionTypeOf a = ionTypeOf b
    · rw [natureEq_comm ha hb hta htb hty hpy hpn heq]
      simp [hty]
    · have hty' : ¬ ionTypeOf b = ionTypeOf a := fun e => hty e.symm
      simp [hty, hty']

theorem allTyped_mem {xs : List PyObj} (h : AllTyped xs) : ∀ x ∈ xs, WellTyped x := by
  induction xs with
  | nil => simp
  | cons x xs ih =>
    simp only [AllTyped] at h
    intro y hy
    rcases List.mem_cons.mp hy with rfl | hy
    · exact h.1
    · exact ih h.2 y hy

theorem parts_typed {a : PyObj} (h : WellTyped a) : ∀ x ∈ parts a, WellTyped x := by
  cases a with
  | seq k xs =>
    cases k with
    | plain c => simp only [WellTyped] at h; exact allTyped_mem h
    | ion ty ann => simp only [WellTyped] at h; exact allTyped_mem h.2
  | _ => simp [parts]

theorem pyEq_null (n : Nat) (x : PyObj) (ty : Option IonType) (ann : List SymArg) : pyEq n x (.null ty ann) = false := by
  cases n with
  | zero => rfl
  | succ n => cases x <;> rfl

theorem equalsTo_comm (m : Bool) (n : Nat) : ∀ a b, WellTyped a → WellTyped b → equalsTo m n a b = equalsTo m n b a := by
  induction n with
  | zero => intro a b _ _; rfl
  | succ n ih =>
    intro a b ha hb
    exact step_comm ha hb (pyEq_comm _) (pyEq_null _) (fun x hx y hy => ih x y (parts_typed ha x hx) (parts_typed hb y hy))

/-- C31: the order of the operands does not matter, in both modes, for all objects whose parts with Ion nature have a type that
fits their class. -/
theorem C31_symmetric_partial (instantsOnly : Bool) (a b : PyObj) (ha : WellTyped a) (hb : WellTyped b) :
    ionEquals instantsOnly a b = ionEquals instantsOnly b a := by
  unfold ionEquals
  rw [equalsTo_comm _ _ a b ha hb, Nat.add_comm (depth a)]

/-- The theorem applies to a struct with annotations, compared with a plain dictionary. -/
example : WellTyped (.dict (.ion (some .struct) [.text [97]]) [(some (.text [98]), .scalar (.ion (some .int) []) (.int 1))]) ∧
    WellTyped (.dict (.plain .dict) [(some (.text [98]), .scalar (.plain .int) (.int 1))]) := by
  simp [WellTyped, AllTypedItems, Fits]

/-- C31, negative: without an Ion type (`IonPyInt(1)` and `IonPyFloat(1.0)`, made by their constructors), the order of the operands
matters: `==` decides in one order, and the comparison of floats in the other. -/
theorem C31_untyped_asymmetric :
    ionEquals false (.scalar (.ion none []) (.int 1)) (.scalar (.ion none []) (.float 0x3FF0000000000000)) = true ∧
    ionEquals false (.scalar (.ion none []) (.float 0x3FF0000000000000)) (.scalar (.ion none []) (.int 1)) = false := by
  decide +kernel

/-! ## Reflexivity -/

theorem depth_mem {xs : List PyObj} : ∀ x ∈ xs, depth x ≤ depthAll xs := by
  induction xs with
  | nil => simp
  | cons x xs ih =>
    intro y hy
    simp only [depthAll]
    rcases List.mem_cons.mp hy with rfl | hy
    · omega
    · have := ih y hy; omega

theorem depth_mem_items {xs : Items} : ∀ p ∈ xs, depth p.2 ≤ depthItems xs := by
  induction xs with
  | nil => simp
  | cons x xs ih =>
    obtain ⟨k, o⟩ := x
    intro y hy
    simp only [depthItems]
    rcases List.mem_cons.mp hy with rfl | hy
    · simp
    · have := ih y hy; omega

theorem comparable_mem {xs : List PyObj} (h : AllComparable xs) : ∀ x ∈ xs, Comparable x := by
  induction xs with
  | nil => simp
  | cons x xs ih =>
    simp only [AllComparable] at h
    intro y hy
    rcases List.mem_cons.mp hy with rfl | hy
    · exact h.1
    · exact ih h.2 y hy

theorem comparable_mem_items {xs : Items} (h : AllComparableItems xs) : ∀ p ∈ xs, Comparable p.2 := by
  induction xs with
  | nil => simp
  | cons x xs ih =>
    obtain ⟨k, o⟩ := x
    simp only [AllComparableItems] at h
    intro y hy
    rcases List.mem_cons.mp hy with rfl | hy
    · exact h.1
    · exact ih h.2 y hy

theorem symbolsEq_self (a : SymArg) : symbolsEq a a = true := by
  simp [symbolsEq]

theorem annotationsEq_self (as : List SymArg) : annotationsEq as as = true := by
  induction as with
  | nil => rfl
  | cons a as ih => simp [annotationsEq, symbolsEq_self, ih]

theorem dateTimeEq_self (a : DateTime) : dateTimeEq a a = true := by
  unfold dateTimeEq
  cases a.tz <;> simp

theorem timesEqObj_self (m : Bool) (k : Kind) (t : Scalars.TimeVal) : timesEqObj m t (.scalar k (.timestamp t)) = true := by
  cases m <;> cases t <;> simp [timesEqObj, timestampsEq, instantsEq, precisionEq, dateTimeEq_self]

theorem decimalsEq_self (k : Kind) (d : Dec) : decimalsEq d (.scalar k (.decimal d)) = true := by
  simp [decimalsEq, compareTotal]

theorem floatsEq_self (k : Kind) (x : UInt64) : floatsEq x (.scalar k (.float x)) = true := by
  simp only [floatsEq, floatEq]
  cases isZero x <;> cases isNaN x <;> simp

theorem allEq_self {eq : PyObj → PyObj → Bool} {xs : List PyObj} (h : ∀ x ∈ xs, eq x x = true) : allEq eq xs xs = true := by
  induction xs with
  | nil => rfl
  | cons x xs ih => simp [allEq, h x (by simp), ih (fun y hy => h y (by simp [hy]))]

theorem valuesFor_mem {xs : Items} {k : Option SymArg} {x : PyObj} : x ∈ valuesFor xs k ↔ (k, x) ∈ xs := by
  simp [valuesFor, and_comm, List.mem_filter]

theorem hasKey_iff {xs : Items} {k : Option SymArg} : hasKey xs k = true ↔ ∃ x, (k, x) ∈ xs := by
  simp [hasKey]

theorem newest_mem {xs : Items} {k : Option SymArg} (h : hasKey xs k = true) : (k, newest xs k) ∈ xs := by
  obtain ⟨x, hx⟩ := hasKey_iff.mp h
  rw [← valuesFor_mem] at hx ⊢
  unfold newest
  cases hv : valuesFor xs k with
  | nil => rw [hv] at hx; simp at hx
  | cons y ys =>
    rw [List.getLastD_cons]
    rcases List.eq_nil_or_concat ys with rfl | ⟨zs, z, rfl⟩ <;> simp

theorem structIn_self {eq : PyObj → PyObj → Bool} {m : Bool} {xs : Items} (h : ∀ p ∈ xs, eq p.2 p.2 = true) : structIn eq m xs xs = true := by
  simp only [structIn, List.all_eq_true]
  rintro ⟨k, x⟩ hp
  have hk : hasKey xs k = true := hasKey_iff.mpr ⟨x, hp⟩
  cases m with
  | false => simp only [hk, Bool.true_and, Bool.false_eq_true, if_false]; exact h _ (newest_mem hk)
  | true =>
    simp only [hk, Bool.true_and, if_true, decide_true, List.all_eq_true, List.any_eq_true]
    intro y hy
    exact ⟨y, hy, h _ (valuesFor_mem.mp hy)⟩

theorem structsEq_self {eq : PyObj → PyObj → Bool} {k : Kind} {xs : Items} (h : ∀ p ∈ xs, eq p.2 p.2 = true) :
    structsEq eq k xs (.dict k xs) = true := by
  simp [structsEq, structIn_self h]

theorem valEq_self {v : PyVal} (h : ∀ b, v ≠ .decimalSpecial b) (hf : ∀ x, v ≠ .float x) : valEq v v = true := by
  cases v <;> simp_all [valEq, numVal, numEq, dateTimeEq_self]

theorem isNaN_iff (x : UInt64) : isNaN x = true ↔ IsNaN x := by
  simp only [isNaN, IsNaN, decide_eq_true_eq]
  have := x.toNat_lt
  omega

theorem selfEqual_mem {xs : List PyObj} (h : AllSelfEqual xs) : ∀ x ∈ xs, SelfEqual x := by
  induction xs with
  | nil => simp
  | cons y ys ih =>
    simp only [AllSelfEqual] at h
    intro x hx
    rcases List.mem_cons.mp hx with rfl | hx
    · exact h.1
    · exact ih h.2 x hx

theorem selfEqual_mem_items {xs : Items} (h : AllSelfEqualItems xs) : ∀ p ∈ xs, SelfEqual p.2 := by
  induction xs with
  | nil => simp
  | cons y ys ih =>
    obtain ⟨k, y⟩ := y
    simp only [AllSelfEqualItems] at h
    intro x hx
    rcases List.mem_cons.mp hx with rfl | hx
    · exact h.1
    · exact ih h.2 x hx

theorem itemsIn_self {eq : PyObj → PyObj → Bool} {xs : Items} (h : ∀ p ∈ xs, eq p.2 p.2 = true) : itemsIn eq xs xs = true := by
  simp only [itemsIn, List.all_eq_true]
  rintro ⟨k, x⟩ hp
  have hk : hasKey xs k = true := hasKey_iff.mpr ⟨x, hp⟩
  simp only [hk, Bool.true_and]
  exact h _ (newest_mem hk)

theorem pyEq_self (n : Nat) : ∀ a, SelfEqual a → depth a < n → pyEq n a a = true := by
  induction n with
  | zero => intro a _ h; omega
  | succ n ih =>
    intro a hc hd
    cases a with
    | none => rfl
    | null ty ann => simp [SelfEqual] at hc
    | other c => simp [SelfEqual] at hc
    | scalar k v =>
      simp only [SelfEqual] at hc
      simp only [pyEq, pyEqStep]
      by_cases hf : ∃ x, v = .float x
      · obtain ⟨x, rfl⟩ := hf
        have hn : isNaN x = false := by
          rw [← Bool.not_eq_true, isNaN_iff]
          exact hc.2 x rfl
        simp [valEq, floatEq, hn]
      · exact valEq_self hc.1 (fun x hx => hf ⟨x, hx⟩)
    | seq k xs =>
      simp only [depth] at hd
      simp only [SelfEqual] at hc
      simp only [pyEq, pyEqStep, decide_true, Bool.true_and]
      exact allEq_self (fun x hx => ih x (selfEqual_mem hc x hx) (by have := depth_mem x hx; omega))
    | dict k xs =>
      simp only [depth] at hd
      simp only [SelfEqual] at hc
      have hx : ∀ p ∈ xs, pyEq n p.2 p.2 = true :=
        fun p hp => ih _ (selfEqual_mem_items hc p hp) (by have := depth_mem_items p hp; omega)
      simp [pyEq, pyEqStep, itemsIn_self hx]

theorem equalsTo_self (m : Bool) (n : Nat) : ∀ a, Comparable a → depth a < n → equalsTo m n a a = true := by
  induction n with
  | zero => intro a _ h; omega
  | succ n ih =>
    intro a hc hd
    simp only [equalsTo, equalsStep, firstLoop, annotationsEq_self, decide_true, Bool.true_and, if_true]
    cases a with
    | none => simp [isIon, secondLoop, pyEq, pyEqStep]
    | null ty ann => simp [isIon, natureEq]
    | other c => simp [Comparable] at hc
    | scalar k v =>
      simp only [Comparable] at hc
      cases k with
      | ion ty ann =>
        simp only [isIon, if_true]
        cases v <;> simp [natureEq, timesEqObj_self, decimalsEq_self, floatsEq_self, symbolsEqObj, symOf, symbolsEq_self, pyEq, pyEqStep, valEq_self, hc]
      | plain c =>
        simp only [isIon, Bool.false_eq_true, if_false]
        cases v <;> simp [secondLoop, timesEqObj_self, decimalsEq_self, floatsEq_self, symbolsEqObj, symOf, symbolsEq_self, pyEq, pyEqStep, valEq_self, hc]
    | seq k xs =>
      simp only [depth] at hd
      have hx : ∀ x ∈ xs, Comparable x → equalsTo m n x x = true := fun x hx hcx => ih x hcx (by have := depth_mem x hx; omega)
      cases k with
      | ion ty ann =>
        simp only [Comparable] at hc
        simp only [isIon, if_true, natureEq, sequencesEq]
        exact allEq_self (fun x h => hx x h (comparable_mem hc x h))
      | plain c =>
        simp only [Comparable] at hc
        rcases hc with ⟨rfl, hc⟩ | ⟨rfl, hc⟩
        · simp only [isIon, Bool.false_eq_true, if_false, secondLoop, isListKind, Cls.isList, if_true, sequencesEq]
          exact allEq_self (fun x h => hx x h (comparable_mem hc x h))
        · simp only [isIon, Bool.false_eq_true, if_false, secondLoop, isListKind, Cls.isList]
          exact pyEq_self (n + 1) _ (by simpa only [SelfEqual] using hc) (by simpa only [depth] using hd)
    | dict k xs =>
      simp only [depth] at hd
      simp only [Comparable] at hc
      have hx : ∀ p ∈ xs, equalsTo m n p.2 p.2 = true := fun p hp => ih _ (comparable_mem_items hc p hp) (by have := depth_mem_items p hp; omega)
      cases k <;> simp [isIon, natureEq, secondLoop, structsEq_self hx]

/-- C31: every object (see `Comparable`) equals a copy of itself, in both modes. -/
theorem C31_reflexive_partial (instantsOnly : Bool) (a : PyObj) (h : Comparable a) : ionEquals instantsOnly a a = true :=
  equalsTo_self _ _ a h (by omega)

/-- The theorem applies to a list with a NaN, a null and a struct with a repeated field. -/
example : Comparable (.seq (.plain .list) [.scalar (.ion (some .float) []) (.float 0x7FF8000000000000), .null (some .int) [.text [97]],
    .dict (.ion (some .struct) []) [(some (.text [98]), .scalar (.plain .int) (.int 1)), (some (.text [98]), .none)]]) := by
  simp [Comparable, AllComparable, AllComparableItems]

/-- It also applies to a plain tuple with an annotated integer. -/
example : Comparable (.seq (.plain .tuple) [.scalar (.ion (some .int) [.text [97]]) (.int 1), .scalar (.plain .float) (.float 0)]) := by
  simp [Comparable, AllSelfEqual, SelfEqual, IsNaN]

/-- C31, negative: a plain tuple with a NaN, and one with a null with Ion nature, does not equal a copy of itself: plain tuples are
compared with `==`, although plain lists are not. -/
theorem C31_tuples_not_reflexive (instantsOnly : Bool) :
    ionEquals instantsOnly (.seq (.plain .tuple) [.scalar (.plain .float) (.float 0x7FF8000000000000)])
      (.seq (.plain .tuple) [.scalar (.plain .float) (.float 0x7FF8000000000000)]) = false ∧
    ionEquals instantsOnly (.seq (.plain .tuple) [.null (some .int) []]) (.seq (.plain .tuple) [.null (some .int) []]) = false ∧
    ionEquals instantsOnly (.seq (.plain .list) [.scalar (.plain .float) (.float 0x7FF8000000000000)])
      (.seq (.plain .list) [.scalar (.plain .float) (.float 0x7FF8000000000000)]) = true := by
  cases instantsOnly <;> decide +kernel

/-! ## Plain tuples -/

theorem bare_none : bare .none = .none := rfl

theorem bareItems_map (xs : Items) : bareItems xs = xs.map fun p => (p.1, bare p.2) := by
  induction xs with
  | nil => rfl
  | cons p xs ih => obtain ⟨k, x⟩ := p; simp [bareItems, ih]

theorem hasKey_bare (xs : Items) (k : Option SymArg) : hasKey (bareItems xs) k = hasKey xs k := by
  rw [bareItems_map]
  induction xs with
  | nil => rfl
  | cons p xs ih => simp only [hasKey, List.map_cons, List.any_cons] at ih ⊢; rw [ih]

theorem valuesFor_bare (xs : Items) (k : Option SymArg) : valuesFor (bareItems xs) k = (valuesFor xs k).map bare := by
  rw [bareItems_map]
  induction xs with
  | nil => rfl
  | cons p xs ih =>
    simp only [valuesFor, List.map_cons, List.filter_cons] at ih ⊢
    split_ifs <;> simp [ih]

theorem newest_bare (xs : Items) (k : Option SymArg) : newest (bareItems xs) k = bare (newest xs k) := by
  unfold newest
  rw [valuesFor_bare]
  rcases List.eq_nil_or_concat (valuesFor xs k) with h | ⟨ys, y, h⟩ <;> rw [h]
  · rfl
  · simp

theorem itemsIn_bare {eq : PyObj → PyObj → Bool} (h : ∀ x y, eq (bare x) (bare y) = eq x y) (xs ys : Items) :
    itemsIn eq (bareItems xs) (bareItems ys) = itemsIn eq xs ys := by
  unfold itemsIn
  simp only [newest_bare, hasKey_bare, h]
  rw [bareItems_map, List.all_map]
  rfl

theorem allEq_bare {eq : PyObj → PyObj → Bool} (h : ∀ x y, eq (bare x) (bare y) = eq x y) (xs : List PyObj) : ∀ ys : List PyObj,
    allEq eq (bareAll xs) (bareAll ys) = allEq eq xs ys := by
  induction xs with
  | nil => intro ys; cases ys <;> rfl
  | cons x xs ih => intro ys; cases ys <;> simp [bareAll, allEq, h, ih]

theorem pyEq_bare (n : Nat) : ∀ a b, pyEq n (bare a) (bare b) = pyEq n a b := by
  induction n with
  | zero => intro a b; rfl
  | succ n ih =>
    intro a b
    cases a with
    | none => cases b with
      | scalar k v => cases k <;> rfl
      | seq k v => cases k <;> rfl
      | dict k v => cases k <;> rfl
      | _ => rfl
    | null ty ann => cases b with
      | scalar k v => cases k <;> rfl
      | seq k v => cases k <;> rfl
      | dict k v => cases k <;> rfl
      | _ => rfl
    | other c => cases b with
      | scalar k v => cases k <;> rfl
      | seq k v => cases k <;> rfl
      | dict k v => cases k <;> rfl
      | _ => rfl
    | scalar k v => cases k <;> cases b with
      | scalar l w => cases l <;> rfl
      | seq l w => cases l <;> rfl
      | dict l w => cases l <;> rfl
      | _ => rfl
    | seq k xs => cases k <;> cases b with
      | scalar l w => cases l <;> rfl
      | seq l ys =>
        cases l <;> simp only [bare, pyEq, pyEqStep, isListKind, Cls.isList, allEq_bare ih] <;> rfl
      | dict l w => cases l <;> rfl
      | _ => rfl
    | dict k xs => cases k <;> cases b with
      | scalar l w => cases l <;> rfl
      | seq l ys => cases l <;> rfl
      | dict l w => cases l <;> simp [bare, pyEq, pyEqStep, itemsIn_bare ih]
      | _ => rfl

theorem depth_bare (n : Nat) : ∀ a, depth a < n → depth (bare a) = depth a := by
  induction n with
  | zero => intro a h; omega
  | succ n ih =>
    have hall : ∀ xs : List PyObj, depthAll xs < n → depthAll (bareAll xs) = depthAll xs := by
      intro xs
      induction xs with
      | nil => intro _; rfl
      | cons x xs ihx =>
        intro h
        simp only [depthAll, bareAll] at h ⊢
        rw [ih x (by omega), ihx (by omega)]
    have hitems : ∀ xs : Items, depthItems xs < n → depthItems (bareItems xs) = depthItems xs := by
      intro xs
      induction xs with
      | nil => intro _; rfl
      | cons x xs ihx =>
        obtain ⟨k, x⟩ := x
        intro h
        simp only [depthItems, bareItems] at h ⊢
        rw [ih x (by omega), ihx (by omega)]
    intro a h
    cases a with
    | scalar k v => cases k <;> rfl
    | seq k xs =>
      simp only [depth] at h
      cases k <;> simp only [bare, depth, hall xs (by omega)]
    | dict k xs =>
      simp only [depth] at h
      cases k <;> simp only [bare, depth, hitems xs (by omega)]
    | _ => rfl

/-- C31: between plain tuples, Ion types and annotations do not count, at any depth. -/
theorem C31_tuples_ignore_nature (instantsOnly : Bool) (xs ys : List PyObj) :
    ionEquals instantsOnly (.seq (.plain .tuple) xs) (.seq (.plain .tuple) ys) =
      ionEquals instantsOnly (.seq (.plain .tuple) (bareAll xs)) (.seq (.plain .tuple) (bareAll ys)) := by
  have hd : ∀ zs, depth (.seq (.plain .tuple) (bareAll zs)) = depth (.seq (.plain .tuple) zs) := fun zs =>
    depth_bare (depth (.seq (.plain .tuple) zs) + 1) (.seq (.plain .tuple) zs) (by omega)
  unfold ionEquals
  rw [hd, hd]
  simp only [equalsTo, equalsStep, isIon, Bool.false_eq_true, if_false, secondLoop, isListKind, Cls.isList]
  exact (pyEq_bare _ (.seq (.plain .tuple) xs) (.seq (.plain .tuple) ys)).symm

/-- The theorem applies: an annotated list in a tuple equals a plain list in a tuple. -/
example : bareAll [.seq (.ion (some .sexp) [.text [97]]) [.scalar (.ion (some .int) []) (.int 1)]] =
    [.seq (.plain .list) [.scalar (.plain .int) (.int 1)]] := rfl

/-- C31, negative: the annotations of a list count, unless it is in a plain tuple. -/
theorem C31_tuple_hides_annotations (instantsOnly : Bool) :
    ionEquals instantsOnly (.seq (.plain .tuple) [.seq (.ion (some .list) [.text [97]]) []])
      (.seq (.plain .tuple) [.seq (.ion (some .sexp) []) []]) = true ∧
    ionEquals instantsOnly (.seq (.plain .list) [.seq (.ion (some .list) [.text [97]]) []])
      (.seq (.plain .list) [.seq (.ion (some .sexp) []) []]) = false := by
  cases instantsOnly <;> decide +kernel

/-! ## The data model -/

theorem isZero_iff (x : UInt64) : isZero x = true ↔ x = 0 ∨ x = 0x8000000000000000 := by
  simp only [isZero, decide_eq_true_eq, ← UInt64.toNat_inj]
  have := x.toNat_lt
  have h1 : (0 : UInt64).toNat = 0 := rfl
  have h2 : (0x8000000000000000 : UInt64).toNat = 2 ^ 63 := rfl
  rw [h1, h2]
  omega

theorem floatsEq_iff (k : Kind) (x y : UInt64) : floatsEq x (.scalar k (.float y)) = true ↔ x = y ∨ (IsNaN x ∧ IsNaN y) := by
  simp only [floatsEq, ← isNaN_iff]
  by_cases h : isZero x = true ∧ isZero y = true
  · rw [if_pos (by simp [h])]
    rcases (isZero_iff x).mp h.1 with rfl | rfl <;> rcases (isZero_iff y).mp h.2 with rfl | rfl <;> decide
  · rw [if_neg (by simpa using h)]
    simp only [floatEq, Bool.or_eq_true, Bool.and_eq_true, Bool.not_eq_true', decide_eq_true_eq]
    constructor
    · rintro (⟨_, h1 | h1⟩ | h1)
      · exact .inl h1
      · exact absurd h1 h
      · exact .inr h1
    · rintro (rfl | h1)
      · cases hn : isNaN x <;> simp
      · exact .inr h1

theorem ten_pow_ne (e : Int) : (10 : ℚ) ^ e ≠ 0 := zpow_ne_zero _ (by norm_num)

theorem decVal_inj {a b : Dec} (hs : a.sign = b.sign) (he : a.exp = b.exp) (h : decVal a = decVal b) : a = b := by
  obtain ⟨s, c, e⟩ := a
  obtain ⟨s', c', e'⟩ := b
  simp only at hs he
  subst hs he
  simp only [decVal] at h
  have h1 := mul_right_cancel₀ (ten_pow_ne e) h
  have : (c : ℚ) = c' := by
    cases s <;> simpa using h1
  rw [Nat.cast_inj] at this
  rw [this]

theorem decimalsEq_iff (k : Kind) (a b : Dec) : decimalsEq a (.scalar k (.decimal b)) = true ↔ a = b := by
  constructor
  · intro h
    simp only [decimalsEq] at h
    split_ifs at h with hz
    simp only [decide_eq_true_eq] at h
    unfold compareTotal at h
    by_cases h1 : (a.sign && !b.sign) = true
    · rw [if_pos h1] at h; omega
    rw [if_neg h1] at h
    by_cases h2 : (!a.sign && b.sign) = true
    · rw [if_pos h2] at h; omega
    rw [if_neg h2] at h
    by_cases h3 : decVal a < decVal b
    · rw [if_pos h3] at h; omega
    rw [if_neg h3] at h
    by_cases h4 : decVal b < decVal a
    · rw [if_pos h4] at h; omega
    rw [if_neg h4] at h
    by_cases h5 : a.exp < b.exp
    · rw [if_pos h5] at h; split_ifs at h <;> omega
    rw [if_neg h5] at h
    by_cases h6 : b.exp < a.exp
    · rw [if_pos h6] at h; split_ifs at h <;> omega
    apply decVal_inj _ (by omega) (by linarith)
    revert h1 h2
    cases a.sign <;> cases b.sign <;> simp
  · rintro rfl; exact decimalsEq_self _ _

/-! ### Time -/

theorem dayNumber_year {y m d : Nat} (hm1 : 1 ≤ m) (hm : m ≤ 12) (hd1 : 1 ≤ d) (hd : d ≤ daysInMonth y m) :
    DateTime.Spec.dayNumber y 1 1 ≤ DateTime.Spec.dayNumber y m d ∧ DateTime.Spec.dayNumber y m d < DateTime.Spec.dayNumber (y + 1) 1 1 := by
  have : m = 1 ∨ m = 2 ∨ m = 3 ∨ m = 4 ∨ m = 5 ∨ m = 6 ∨ m = 7 ∨ m = 8 ∨ m = 9 ∨ m = 10 ∨ m = 11 ∨ m = 12 := by omega
  by_cases hl : y % 4 = 0 ∧ (y % 100 ≠ 0 ∨ y % 400 = 0)
  · have hb : isLeap y = true := by simp [isLeap]; omega
    rcases this with rfl | rfl | rfl | rfl | rfl | rfl | rfl | rfl | rfl | rfl | rfl | rfl <;>
      simp [DateTime.Spec.dayNumber, daysInMonth, DateTime.Spec.daysBefore, DateTime.Spec.leapDay, hl, hb] at hd ⊢ <;> omega
  · have hb : isLeap y = false := by
      cases h : isLeap y with
      | false => rfl
      | true => simp [isLeap] at h; exact absurd (by omega) hl
    have hk : ∀ k, DateTime.Spec.leapDay y k = 0 := by intro k; simp only [DateTime.Spec.leapDay]; rw [if_neg]; exact fun h => hl h.2
    rcases this with rfl | rfl | rfl | rfl | rfl | rfl | rfl | rfl | rfl | rfl | rfl | rfl <;>
      simp [DateTime.Spec.dayNumber, daysInMonth, DateTime.Spec.daysBefore, hk, hb] at hd ⊢ <;> simp [DateTime.Spec.leapDay] <;> omega

theorem dayNumber_mono (y y' : Nat) (h : y < y') : DateTime.Spec.dayNumber (y + 1) 1 1 ≤ DateTime.Spec.dayNumber y' 1 1 := by
  simp only [DateTime.Spec.dayNumber, DateTime.Spec.daysBefore, DateTime.Spec.leapDay]
  rw [if_neg (by omega), if_neg (by omega)]
  push_cast
  omega

theorem dayNumber_month {y m d m' d' : Nat} (hm1 : 1 ≤ m) (hm' : m' ≤ 12) (hd : d ≤ daysInMonth y m) (hd1 : 1 ≤ d') (h : m < m') :
    DateTime.Spec.dayNumber y m d < DateTime.Spec.dayNumber y m' d' := by
  have hc : m = 1 ∨ m = 2 ∨ m = 3 ∨ m = 4 ∨ m = 5 ∨ m = 6 ∨ m = 7 ∨ m = 8 ∨ m = 9 ∨ m = 10 ∨ m = 11 := by omega
  have hc' : m' = 2 ∨ m' = 3 ∨ m' = 4 ∨ m' = 5 ∨ m' = 6 ∨ m' = 7 ∨ m' = 8 ∨ m' = 9 ∨ m' = 10 ∨ m' = 11 ∨ m' = 12 := by omega
  have hl : isLeap y = true → y % 4 = 0 ∧ (y % 100 ≠ 0 ∨ y % 400 = 0) := by simp [isLeap]
  simp only [DateTime.Spec.dayNumber, DateTime.Spec.leapDay]
  cases hb : isLeap y
  · have : d + DateTime.Spec.daysBefore m ≤ DateTime.Spec.daysBefore m' := by
      rcases hc with rfl | rfl | rfl | rfl | rfl | rfl | rfl | rfl | rfl | rfl | rfl <;>
        rcases hc' with rfl | rfl | rfl | rfl | rfl | rfl | rfl | rfl | rfl | rfl | rfl <;>
        first
        | (exfalso; omega)
        | (simp [daysInMonth, DateTime.Spec.daysBefore, hb] at hd ⊢; omega)
    split_ifs <;> omega
  · have hl := hl hb
    have : d + DateTime.Spec.daysBefore m + (if 2 < m then 1 else 0) ≤ DateTime.Spec.daysBefore m' + (if 2 < m' then 1 else 0) := by
      rcases hc with rfl | rfl | rfl | rfl | rfl | rfl | rfl | rfl | rfl | rfl | rfl <;>
        rcases hc' with rfl | rfl | rfl | rfl | rfl | rfl | rfl | rfl | rfl | rfl | rfl <;>
        first
        | (exfalso; omega)
        | (simp [daysInMonth, DateTime.Spec.daysBefore, hb] at hd ⊢; omega)
    split_ifs at this ⊢ <;> omega

theorem instant_inj {a b : DateTime} (ha : a.Valid) (hb : b.Valid) (ht : a.tz = b.tz) (h : DateTime.Spec.instant a = DateTime.Spec.instant b) :
    a = b := by
  obtain ⟨y, m, d, hh, mi, s, u, tz⟩ := a
  obtain ⟨y', m', d', hh', mi', s', u', tz'⟩ := b
  simp only [DateTime.Valid] at ha hb
  simp only [DateTime.Spec.instant] at h
  simp only at ht
  obtain ⟨_, _, hm1, hm, hd1, hd, h1, h2, h3, h4⟩ := ha
  obtain ⟨_, _, hm1', hm', hd1', hd', h1', h2', h3', h4'⟩ := hb
  have hday : DateTime.Spec.dayNumber y m d = DateTime.Spec.dayNumber y' m' d' := by omega
  have := dayNumber_year hm1 hm hd1 hd
  have := dayNumber_year hm1' hm' hd1' hd'
  have hy : y = y' := by
    rcases lt_trichotomy y y' with hlt | heq | hlt
    · have := dayNumber_mono y y' hlt; omega
    · exact heq
    · have := dayNumber_mono y' y hlt; omega
  subst hy
  have hm : m = m' := by
    rcases lt_trichotomy m m' with hlt | heq | hlt
    · have := dayNumber_month hm1 hm' hd hd1' hlt; omega
    · exact heq
    · have := dayNumber_month hm1' hm hd' hd1 hlt; omega
  subst hm
  have hd : d = d' := by simp only [DateTime.Spec.dayNumber] at hday; omega
  subst hd
  simp only [DateTime.mk.injEq]
  simp only [true_and]
  refine ⟨?_, ?_, ?_, ?_, ht⟩ <;> omega

theorem dateTimeEq_iff {a b : DateTime} (ha : a.Valid) (hb : b.Valid) (ht : a.tz = b.tz) :
    dateTimeEq a b = true ↔ DateTime.Spec.instant a = DateTime.Spec.instant b := by
  unfold dateTimeEq
  cases h : a.tz with
  | none =>
    rw [← ht, h]
    simp only [decide_eq_true_eq]
    exact ⟨fun e => by rw [e], instant_inj ha hb ht⟩
  | some o =>
    rw [← ht, h]
    simp only [decide_eq_true_eq]
    omega

theorem instantsEq_iff (a b : Timestamp) : instantsEq (.ts a) (.ts b) = true ↔ SamePoint a b := by
  obtain ⟨⟨y, m, d, h, mi, s, u, tz⟩, _, _, _⟩ := a
  obtain ⟨⟨y', m', d', h', mi', s', u', tz'⟩, _, _, _⟩ := b
  simp only [instantsEq, Scalars.TimeVal.dateTime, SamePoint, withOffset]
  cases tz <;> cases tz' <;> simp [dateTimeEq, DateTime.Spec.instant]

theorem timestampsEq_iff {a b : Timestamp} {p q : Precision} (ha : IsTimeValue a p) (hb : IsTimeValue b q) :
    timestampsEq (.ts a) (.ts b) = true ↔ SameTime a b := by
  simp only [timestampsEq, precisionEq, Scalars.TimeVal.dateTime, Bool.and_eq_true, decide_eq_true_eq]
  constructor
  · rintro ⟨⟨h1, ⟨h2, h3⟩, h4⟩, h5⟩
    have h1 := of_decide_eq_true h1
    exact ⟨(dateTimeEq_iff ha.valid hb.valid h1).mp h5, h1, h2, by rw [← ha.digits, ← hb.digits, h3], h4⟩
  · intro h
    exact ⟨⟨decide_eq_true h.offset, ⟨h.precision, by rw [ha.digits, hb.digits, h.digits]⟩, h.fraction⟩, (dateTimeEq_iff ha.valid hb.valid h.offset).mpr h.instant⟩

/-! ### Symbols -/

theorem symbolsEq_known {a b : SymArg} (ha : Known a) (hb : Known b) : symbolsEq a b = true ↔ seenText a = seenText b := by
  have hs : ∀ c, seenText c = some (symText c) := by intro c; cases c <;> rfl
  rw [hs, hs, Option.some.injEq]
  unfold symbolsEq
  by_cases h : symText a = symText b
  · rw [if_pos h]
    simp only [h, iff_true]
    by_cases h1 : symText b = none
    · rw [if_pos h1]
      have key : ∀ c, Known c → symText c = none → symLocation c = none ∧ symSid c = some 0 := by
        intro c hc hn
        cases c with
        | text t => simp [symText] at hn
        | tok k =>
          simp only [symText] at hn
          simp only [Known, hn] at hc
          simp only [symLocation, symSid]
          rcases hc with hc | hc
          · exact absurd rfl hc
          · exact ⟨hc.2, hc.1⟩
      obtain ⟨l1, s1⟩ := key a ha (h.trans h1)
      obtain ⟨l2, s2⟩ := key b hb h1
      rw [l1, l2, s1, s2]
      simp
    · rw [if_neg h1]
  · rw [if_neg h]; simp [h]

theorem annotationsEq_known {as : List SymArg} : ∀ {bs : List SymArg} {xs ys : List (Option Text)}, (∀ a ∈ as, Known a) → (∀ b ∈ bs, Known b) →
    Ion.Spec.allSome seenText as = some xs → Ion.Spec.allSome seenText bs = some ys → (annotationsEq as bs = true ↔ xs = ys) := by
  induction as with
  | nil =>
    intro bs xs ys _ _ hx hy
    simp only [Ion.Spec.allSome, Option.some.injEq] at hx
    subst hx
    cases bs with
    | nil => simp only [Ion.Spec.allSome, Option.some.injEq] at hy; simp [annotationsEq, ← hy]
    | cons b bs =>
      simp only [Ion.Spec.allSome] at hy
      cases h1 : seenText b <;> cases h2 : Ion.Spec.allSome seenText bs <;> rw [h1, h2] at hy <;> simp at hy
      simp [annotationsEq, ← hy]
  | cons a as ih =>
    intro bs xs ys ha hb hx hy
    simp only [Ion.Spec.allSome] at hx
    cases h1 : seenText a <;> cases h2 : Ion.Spec.allSome seenText as <;> rw [h1, h2] at hx <;> simp at hx
    subst hx
    cases bs with
    | nil => simp only [Ion.Spec.allSome, Option.some.injEq] at hy; simp [annotationsEq, ← hy]
    | cons b bs =>
      simp only [Ion.Spec.allSome] at hy
      cases h3 : seenText b <;> cases h4 : Ion.Spec.allSome seenText bs <;> rw [h3, h4] at hy <;> simp at hy
      subst hy
      simp only [annotationsEq, Bool.and_eq_true, List.cons.injEq]
      rw [ih (fun c hc => ha c (by simp [hc])) (fun c hc => hb c (by simp [hc])) h2 h4,
        symbolsEq_known (ha a (by simp)) (hb b (by simp)), h1, h3, Option.some.injEq]

/-! ### Structs -/

theorem valuesFor_length (xs : Items) (k : Option SymArg) : (valuesFor xs k).length = (xs.map (·.1)).count k := by
  induction xs with
  | nil => rfl
  | cons p xs ih =>
    obtain ⟨k', x⟩ := p
    simp only [valuesFor, List.length_map] at ih ⊢
    by_cases h : k' = k
    · subst h; simp [ih]
    · simp [h, ih, List.count_cons]

theorem structIn_iff {eq : PyObj → PyObj → Bool} {xs ys : Items} : structIn eq true xs ys = true ↔
    (∀ k ∈ xs.map (·.1), (xs.map (·.1)).count k = (ys.map (·.1)).count k) ∧ ∀ p ∈ xs, ∃ q ∈ ys, q.1 = p.1 ∧ eq p.2 q.2 = true := by
  simp only [structIn, List.all_eq_true, Bool.and_eq_true, if_true, decide_eq_true_eq, List.any_eq_true, valuesFor_length, valuesFor_mem, hasKey_iff]
  constructor
  · intro h
    constructor
    · intro k hk
      obtain ⟨p, hp, rfl⟩ := List.mem_map.mp hk
      exact (h p hp).2.1
    · rintro ⟨k, x⟩ hp
      obtain ⟨y, hy, he⟩ := (h _ hp).2.2 x hp
      exact ⟨(k, y), hy, rfl, he⟩
  · rintro ⟨h1, h2⟩ ⟨k, x⟩ hp
    obtain ⟨⟨k', y⟩, hy, he, _⟩ := h2 _ hp
    simp only at he
    subst he
    refine ⟨⟨y, hy⟩, h1 _ (List.mem_map.mpr ⟨_, hp, rfl⟩), ?_⟩
    intro z hz
    obtain ⟨⟨k'', y'⟩, hy', he', h3⟩ := h2 _ hz
    simp only at he'
    subst he'
    exact ⟨y', hy', h3⟩

theorem structsEq_iff {eq : PyObj → PyObj → Bool} {ty tz : Option IonType} {ann bnn : List SymArg} {xs ys : Items} :
    structsEq eq (.ion ty ann) xs (.dict (.ion tz bnn) ys) = true ↔
    (xs.map (·.1)).Perm (ys.map (·.1)) ∧ (∀ p ∈ xs, ∃ q ∈ ys, q.1 = p.1 ∧ eq p.2 q.2 = true) ∧
      (∀ q ∈ ys, ∃ p ∈ xs, p.1 = q.1 ∧ eq q.2 p.2 = true) := by
  simp only [structsEq, isMultimap, Bool.and_self, Bool.and_eq_true, decide_eq_true_eq, structIn_iff]
  constructor
  · rintro ⟨⟨hl, h1, h2⟩, h3, h4⟩
    refine ⟨?_, h2, h4⟩
    rw [List.perm_iff_count]
    intro k
    by_cases hx : k ∈ xs.map (·.1)
    · exact h1 k hx
    · by_cases hy : k ∈ ys.map (·.1)
      · exact (h3 k hy).symm
      · rw [List.count_eq_zero_of_not_mem hx, List.count_eq_zero_of_not_mem hy]
  · rintro ⟨hp, h2, h4⟩
    have hc := List.perm_iff_count.mp hp
    refine ⟨⟨?_, fun k _ => hc k, h2⟩, fun k _ => (hc k).symm, h4⟩
    have := hp.length_eq
    simpa using this

/-- The field name of a plain key. -/
def keyName : Option SymArg → Option Text
  | some (.text t) => some t
  | _ => none

/-- The plain key of a field name. -/
def nameKey : Option (Option Text) → Option SymArg
  | some (some t) => some (.text t)
  | _ => none

theorem nameKey_keyName {k : Option SymArg} (h : PlainKey k) : nameKey (some (keyName k)) = k := by
  cases k with
  | none => rfl
  | some s => cases s with
    | text t => rfl
    | tok t => simp [PlainKey] at h

theorem eachIn_iff {m : Bool} {xs ys : List Simple.Spec.Val} :
    EachIn m xs ys ↔ ∀ x ∈ xs, ∃ y ∈ ys, x.field = y.field ∧ Alike m x y := by
  induction xs with
  | nil => simp [EachIn]
  | cons x xs ih => simp [EachIn, ih]

theorem someIs_iff {m : Bool} {xs : List Simple.Spec.Val} {y : Simple.Spec.Val} :
    SomeIs m xs y ↔ ∃ x ∈ xs, x.field = y.field ∧ Alike m x y := by
  induction xs with
  | nil => simp [SomeIs]
  | cons x xs ih => simp [SomeIs, ih]

/-- A field of a loaded struct, and its value. -/
structure FieldIs (b : Bool) (p : Option SymArg × PyObj) (n : Simple.Spec.Val) : Prop where
  key : PlainKey p.1
  proper : Proper p.2
  field : n.field = some (keyName p.1)
  value : Simple.Spec.IsValue b seenText (some (keyName p.1)) p.2 n

theorem value_field {b : Bool} {sym : SymArg → Option (Option Text)} {f : Option (Option Text)} {o : PyObj} {n : Simple.Spec.Val}
    (h : Simple.Spec.IsValue b sym f o n) : n.field = f := by
  cases h <;> rfl

theorem fields_are {b : Bool} : ∀ {xs : Items} {ns : List Simple.Spec.Val}, Simple.Spec.AreFields b seenText xs ns → AllProperItems xs →
    List.Forall₂ (FieldIs b) xs ns := by
  intro xs
  induction xs with
  | nil => intro ns h _; cases h; exact .nil
  | cons p xs ih =>
    intro ns h hp
    obtain ⟨k, o⟩ := p
    simp only [AllProperItems] at hp
    cases h with
    | cons _ name _ n _ ns hf hv hr =>
      have hn : name = keyName k := by
        cases hf with
        | text t _ => rfl
        | token => simp [PlainKey] at hp
        | unknown => rfl
      subst hn
      exact .cons ⟨hp.1, hp.2.1, value_field hv, hv⟩ (ih hr hp.2.2)

theorem forall₂_left {α β : Type} {R : α → β → Prop} {as : List α} {bs : List β} (h : List.Forall₂ R as bs) : ∀ a ∈ as, ∃ b ∈ bs, R a b := by
  induction h with
  | nil => simp
  | cons hab _ ih =>
    intro a ha
    rcases List.mem_cons.mp ha with rfl | ha
    · exact ⟨_, by simp, hab⟩
    · obtain ⟨b, hb, hr⟩ := ih a ha; exact ⟨b, by simp [hb], hr⟩

theorem forall₂_right {α β : Type} {R : α → β → Prop} {as : List α} {bs : List β} (h : List.Forall₂ R as bs) : ∀ b ∈ bs, ∃ a ∈ as, R a b := by
  induction h with
  | nil => simp
  | cons hab _ ih =>
    intro a ha
    rcases List.mem_cons.mp ha with rfl | ha
    · exact ⟨_, by simp, hab⟩
    · obtain ⟨b, hb, hr⟩ := ih a ha; exact ⟨b, by simp [hb], hr⟩

theorem fields_names {b : Bool} {xs : Items} {ns : List Simple.Spec.Val} (h : List.Forall₂ (FieldIs b) xs ns) :
    ns.map Ion.Spec.Node.field = (xs.map (·.1)).map (fun k => some (keyName k)) ∧ xs.map (·.1) = (ns.map Ion.Spec.Node.field).map nameKey := by
  induction h with
  | nil => simp
  | cons hpn _ ih =>
    refine ⟨by simp only [List.map_cons, hpn.field, ih.1], ?_⟩
    simp only [List.map_cons, hpn.field, nameKey_keyName hpn.key]
    rw [← ih.2]

theorem names_perm {b : Bool} {xs ys : Items} {ns ms : List Simple.Spec.Val} (hx : List.Forall₂ (FieldIs b) xs ns)
    (hy : List.Forall₂ (FieldIs b) ys ms) :
    (xs.map (·.1)).Perm (ys.map (·.1)) ↔ (ns.map Ion.Spec.Node.field).Perm (ms.map Ion.Spec.Node.field) := by
  constructor
  · intro h
    rw [(fields_names hx).1, (fields_names hy).1]
    exact h.map _
  · intro h
    rw [(fields_names hx).2, (fields_names hy).2]
    exact h.map _

/-- `ion_equals` on the parts agrees with the specification. -/
def Agrees (m b : Bool) (eq : PyObj → PyObj → Bool) (o o' : PyObj) : Prop :=
  ∀ f f' n n', Simple.Spec.IsValue b seenText f o n → Simple.Spec.IsValue b seenText f' o' n' → (eq o o' = true ↔ Alike m n n')

theorem seq_alike {m b : Bool} {eq : PyObj → PyObj → Bool} {xs : List PyObj} : ∀ {ys : List PyObj} {ns ms : List Simple.Spec.Val},
    Simple.Spec.AreValues b seenText xs ns → Simple.Spec.AreValues b seenText ys ms → (∀ x ∈ xs, ∀ y ∈ ys, Agrees m b eq x y) →
    (allEq eq xs ys = true ↔ AllAlike m ns ms) := by
  induction xs with
  | nil =>
    intro ys ns ms hx hy _
    cases hx
    cases hy <;> simp [allEq, AllAlike]
  | cons x xs ih =>
    intro ys ns ms hx hy h
    cases hx with
    | cons _ n _ ns h1 h2 =>
      cases hy with
      | nil => simp [allEq, AllAlike]
      | cons y k ys ms h3 h4 =>
        simp only [allEq, AllAlike, Bool.and_eq_true]
        rw [h x (by simp) y (by simp) _ _ _ _ h1 h3, ih h2 h4 (fun x hx y hy => h x (by simp [hx]) y (by simp [hy]))]

theorem struct_alike {m b : Bool} {eq : PyObj → PyObj → Bool} {ty tz : Option IonType} {ann bnn : List SymArg} {xs ys : Items}
    {ns ms : List Simple.Spec.Val} (hx : List.Forall₂ (FieldIs b) xs ns) (hy : List.Forall₂ (FieldIs b) ys ms)
    (h : ∀ p ∈ xs, ∀ q ∈ ys, Agrees m b eq p.2 q.2) (hc : ∀ p ∈ xs, ∀ q ∈ ys, eq q.2 p.2 = eq p.2 q.2) :
    structsEq eq (.ion ty ann) xs (.dict (.ion tz bnn) ys) = true ↔
      (ns.map Ion.Spec.Node.field).Perm (ms.map Ion.Spec.Node.field) ∧ EachIn m ns ms ∧ ∀ y ∈ ms, SomeIs m ns y := by
  rw [structsEq_iff, names_perm hx hy, eachIn_iff]
  simp only [someIs_iff]
  refine and_congr Iff.rfl (and_congr ?_ ?_)
  · constructor
    · intro H n hn
      obtain ⟨p, hp, hpn⟩ := forall₂_right hx n hn
      obtain ⟨q, hq, hk, he⟩ := H p hp
      obtain ⟨k, hkm, hqk⟩ := forall₂_left hy q hq
      exact ⟨k, hkm, by rw [hpn.field, hqk.field, hk], (h p hp q hq _ _ _ _ hpn.value hqk.value).mp he⟩
    · intro H p hp
      obtain ⟨n, hn, hpn⟩ := forall₂_left hx p hp
      obtain ⟨k, hkm, hf, ha⟩ := H n hn
      obtain ⟨q, hq, hqk⟩ := forall₂_right hy k hkm
      refine ⟨q, hq, ?_, (h p hp q hq _ _ _ _ hpn.value hqk.value).mpr ha⟩
      rw [hpn.field, hqk.field] at hf
      rw [← nameKey_keyName hpn.key, ← nameKey_keyName hqk.key, hf]
  · constructor
    · intro H k hkm
      obtain ⟨q, hq, hqk⟩ := forall₂_right hy k hkm
      obtain ⟨p, hp, hk, he⟩ := H q hq
      obtain ⟨n, hn, hpn⟩ := forall₂_left hx p hp
      rw [hc p hp q hq] at he
      exact ⟨n, hn, by rw [hpn.field, hqk.field, hk], (h p hp q hq _ _ _ _ hpn.value hqk.value).mp he⟩
    · intro H q hq
      obtain ⟨k, hkm, hqk⟩ := forall₂_left hy q hq
      obtain ⟨n, hn, hf, ha⟩ := H k hkm
      obtain ⟨p, hp, hpn⟩ := forall₂_right hx n hn
      refine ⟨p, hp, ?_, ?_⟩
      · rw [hpn.field, hqk.field] at hf
        rw [← nameKey_keyName hpn.key, ← nameKey_keyName hqk.key, hf]
      · rw [hc p hp q hq]
        exact (h p hp q hq _ _ _ _ hpn.value hqk.value).mpr ha

/-! ### Scalars -/

theorem scalar_agree {m : Bool} {eq : PyObj → PyObj → Bool} {n : Nat} {ty : IonType} {ann bnn : List SymArg} {v w : PyVal}
    {x y : Scalar (Option Text)} (hv : Simple.Spec.scalarOf seenText ty v = some x) (hw : Simple.Spec.scalarOf seenText ty w = some y)
    (pv : ProperValue (some ty) v) (pw : ProperValue (some ty) w) :
    natureEq m eq (pyEq (n + 1)) (.scalar (.ion (some ty) ann) v) (.scalar (.ion (some ty) bnn) w) = true ↔ SameScalar m x y := by
  cases ty <;> cases v <;> simp [Simple.Spec.scalarOf, denote, Simple.Spec.asSymbol] at hv <;>
    cases w <;> simp [Simple.Spec.scalarOf, denote, Simple.Spec.asSymbol] at hw
  case bool.bool.bool a b => subst hv hw; cases a <;> cases b <;> simp [natureEq, pyEq, pyEqStep, valEq, numVal, numEq, SameScalar]
  case bool.bool.int a b =>
    subst hv hw
    rcases pw rfl with rfl | rfl <;> cases a <;> simp [natureEq, pyEq, pyEqStep, valEq, numVal, numEq, SameScalar]
  case bool.int.bool a b =>
    subst hv hw
    rcases pv rfl with rfl | rfl <;> cases b <;> simp [natureEq, pyEq, pyEqStep, valEq, numVal, numEq, SameScalar]
  case bool.int.int a b =>
    subst hv hw
    rcases pv rfl with rfl | rfl <;> rcases pw rfl with rfl | rfl <;>
      simp [natureEq, pyEq, pyEqStep, valEq, numVal, numEq, SameScalar]
  case int.int.int a b => subst hv hw; simp [natureEq, pyEq, pyEqStep, valEq, numVal, numEq, SameScalar]
  case float.float.float a b => subst hv hw; simp only [natureEq, SameScalar]; exact floatsEq_iff _ _ _
  case decimal.decimal.decimal a b => subst hv hw; simp only [natureEq, SameScalar, Scalar.decimal.injEq]; exact decimalsEq_iff _ _ _
  case timestamp.timestamp.timestamp a b =>
    subst hv hw
    cases a with
    | dt d => simp [ProperValue] at pv
    | ts a =>
      cases b with
      | dt d => simp [ProperValue] at pw
      | ts b =>
        obtain ⟨p, hp⟩ := pv
        obtain ⟨q, hq⟩ := pw
        simp only [natureEq, SameScalar, timesEqObj, Ion.Spec.timeValue_normal hp, Ion.Spec.timeValue_normal hq]
        cases m
        · simp only [Bool.false_eq_true, if_false]; exact timestampsEq_iff hp hq
        · simp only [if_true]; exact instantsEq_iff a b
  case symbol.sym.sym a b =>
    obtain ⟨a', ha, rfl⟩ := hv
    obtain ⟨b', hb, rfl⟩ := hw
    simp only [natureEq, SameScalar, symbolsEqObj, symOf, Scalar.symbol.injEq]
    rw [symbolsEq_known (a := .tok a) (b := .tok b) pv pw, ha, hb, Option.some.injEq]
  case symbol.sym.str a b =>
    obtain ⟨a', ha, rfl⟩ := hv
    obtain ⟨b', hb, rfl⟩ := hw
    simp only [natureEq, SameScalar, symbolsEqObj, symOf, Scalar.symbol.injEq]
    rw [symbolsEq_known (a := .tok a) (b := .text b) pv (by simp [Known]), ha, hb, Option.some.injEq]
  case symbol.str.sym a b =>
    obtain ⟨a', ha, rfl⟩ := hv
    obtain ⟨b', hb, rfl⟩ := hw
    simp only [natureEq, SameScalar, symbolsEqObj, symOf, Scalar.symbol.injEq, ionTypeOf, if_true]
    rw [symbolsEq_known (a := .text a) (b := .tok b) (by simp [Known]) pw, ha, hb, Option.some.injEq]
  case symbol.str.str a b =>
    obtain ⟨a', ha, rfl⟩ := hv
    obtain ⟨b', hb, rfl⟩ := hw
    simp only [natureEq, SameScalar, symbolsEqObj, symOf, Scalar.symbol.injEq, ionTypeOf, if_true]
    rw [symbolsEq_known (by simp [Known]) (by simp [Known]), ha, hb, Option.some.injEq]
  case string.str.str a b => subst hv hw; simp [natureEq, pyEq, pyEqStep, valEq, SameScalar, ionTypeOf]
  case clob.bytes.bytes a b => subst hv hw; simp [natureEq, pyEq, pyEqStep, valEq, SameScalar]
  case blob.bytes.bytes a b => subst hv hw; simp [natureEq, pyEq, pyEqStep, valEq, SameScalar]

theorem scalarOf_ty {ty : IonType} {v : PyVal} {x : Scalar (Option Text)} (h : Simple.Spec.scalarOf seenText ty v = some x) :
    x.ty = ty ∧ x ≠ .null ty := by
  cases ty <;> cases v <;> simp [Simple.Spec.scalarOf, denote, Simple.Spec.asSymbol] at h
  case symbol.sym => obtain ⟨_, _, rfl⟩ := h; simp [Scalar.ty]
  case symbol.str => obtain ⟨_, _, rfl⟩ := h; simp [Scalar.ty]
  all_goals (subst h; simp [Scalar.ty])

theorem sameScalar_ty {m : Bool} {x y : Scalar (Option Text)} (h : SameScalar m x y) : x.ty = y.ty ∧ (∀ ty, x = .null ty ↔ y = .null ty) := by
  cases x <;> cases y <;> simp [SameScalar, Scalar.ty] at h ⊢ <;> simp [h]

/-! ### Values -/

theorem value_ion {b : Bool} {f : Option (Option Text)} {o : PyObj} {n : Simple.Spec.Val} (hp : Proper o) (h : Simple.Spec.IsValue b seenText f o n) :
    isIon o = true ∧ ∃ ty, ionTypeOf o = some ty ∧ (∀ a ∈ annotationsOf o, Known a) ∧
      ((∃ a x, Ion.Spec.allSome seenText (annotationsOf o) = some a ∧ n = .scalar f a x ∧ x.ty = ty) ∨
       (∃ a c ns, Ion.Spec.allSome seenText (annotationsOf o) = some a ∧ n = .cont f a c ns ∧ c.ty = ty)) := by
  cases h with
  | none => simp [Proper] at hp
  | null _ ty ann a ha =>
    simp only [Proper] at hp
    exact ⟨rfl, ty, rfl, hp, .inl ⟨a, _, ha, rfl, rfl⟩⟩
  | scalar _ k v ty ann a x ht ha hx =>
    cases ht with
    | plain => simp [Proper] at hp
    | ion =>
      simp only [Proper] at hp
      exact ⟨rfl, ty, rfl, hp.1, .inl ⟨a, x, ha, rfl, (scalarOf_ty hx).1⟩⟩
  | seq _ k elems ty ann a ns ht hs ha hv =>
    cases ht with
    | plain => simp [Proper] at hp
    | ion =>
      simp only [Proper] at hp
      exact ⟨rfl, ty.ty, rfl, hp.1, .inr ⟨a, ty, ns, ha, rfl, rfl⟩⟩
  | dict _ k items ann a ns ht ha hv =>
    cases ht with
    | plain => simp [Proper] at hp
    | ion =>
      simp only [Proper] at hp
      exact ⟨rfl, .struct, rfl, hp.1, .inr ⟨a, .struct, ns, ha, rfl, rfl⟩⟩

theorem proper_mem {xs : List PyObj} (h : AllProper xs) : ∀ x ∈ xs, Proper x := by
  induction xs with
  | nil => simp
  | cons x xs ih =>
    simp only [AllProper] at h
    intro y hy
    rcases List.mem_cons.mp hy with rfl | hy
    · exact h.1
    · exact ih h.2 y hy

theorem allTyped_of {xs : List PyObj} (h : ∀ x ∈ xs, WellTyped x) : AllTyped xs := by
  induction xs with
  | nil => simp [AllTyped]
  | cons x xs ih => simp only [AllTyped]; exact ⟨h x (by simp), ih (fun y hy => h y (by simp [hy]))⟩

theorem allTypedItems_of {xs : Items} (h : ∀ p ∈ xs, WellTyped p.2) : AllTypedItems xs := by
  induction xs with
  | nil => simp [AllTypedItems]
  | cons x xs ih => obtain ⟨k, o⟩ := x; simp only [AllTypedItems]; exact ⟨h (k, o) (by simp), ih (fun y hy => h y (by simp [hy]))⟩

theorem values_forall {b : Bool} {sym : SymArg → Option (Option Text)} {xs : List PyObj} : ∀ {ns : List Simple.Spec.Val},
    Simple.Spec.AreValues b sym xs ns → List.Forall₂ (Simple.Spec.IsValue b sym none) xs ns := by
  induction xs with
  | nil => intro ns h; cases h; exact .nil
  | cons x xs ih => intro ns h; cases h with | cons _ n _ ns h1 h2 => exact .cons h1 (ih h2)

theorem proper_typed {b : Bool} (n : Nat) : ∀ {o : PyObj} {f : Option (Option Text)} {v : Simple.Spec.Val}, depth o < n → Proper o →
    Simple.Spec.IsValue b seenText f o v → WellTyped o := by
  induction n with
  | zero => intro o f v h; omega
  | succ n ih =>
    intro o f v hd hp h
    cases h with
    | none => simp [WellTyped]
    | null => simp [WellTyped]
    | scalar _ k v ty ann a x ht ha hx =>
      cases ht with
      | plain => simp [Proper] at hp
      | ion =>
        simp only [WellTyped]
        cases ty <;> cases v <;> simp [Simple.Spec.scalarOf, denote, Simple.Spec.asSymbol] at hx <;> simp [Fits]
    | seq _ k elems ty ann a ns ht hs ha hv =>
      cases ht with
      | plain => simp [Proper] at hp
      | ion =>
        simp only [Proper] at hp
        simp only [depth] at hd
        simp only [WellTyped]
        refine ⟨by cases ty <;> simp [CType.ty] at hs ⊢, allTyped_of ?_⟩
        intro x hx
        obtain ⟨k, _, hk⟩ := forall₂_left (values_forall hv) x hx
        exact ih (by have := depth_mem x hx; omega) (proper_mem hp.2 x hx) hk
    | dict _ k items ann a ns ht ha hv =>
      cases ht with
      | plain => simp [Proper] at hp
      | ion =>
        simp only [Proper] at hp
        simp only [depth] at hd
        simp only [WellTyped]
        refine ⟨trivial, allTypedItems_of ?_⟩
        intro p hm
        obtain ⟨k, _, hk⟩ := forall₂_left (fields_are hv hp.2) p hm
        exact ih (by have := depth_mem_items p hm; omega) hk.proper hk.value

theorem agree (m b : Bool) (n : Nat) : ∀ {o o' : PyObj}, depth o < n → depth o' < n → Proper o → Proper o' →
    Agrees m b (equalsTo m n) o o' := by
  induction n with
  | zero => intro o o' h; omega
  | succ n ih =>
    intro o o' hd hd' hp hp' f f' v v' h h'
    obtain ⟨hi, ty, hty, hk, hv⟩ := value_ion hp h
    obtain ⟨hi', ty', hty', hk', hv'⟩ := value_ion hp' h'
    simp only [equalsTo, equalsStep, hi, hi', if_true, firstLoop]
    have hann : ∀ a a', Ion.Spec.allSome seenText (annotationsOf o) = some a → Ion.Spec.allSome seenText (annotationsOf o') = some a' →
        (annotationsEq (annotationsOf o) (annotationsOf o') = true ↔ a = a') := fun a a' e e' => annotationsEq_known hk hk' e e'
    by_cases htt : ty = ty'
    · subst htt
      rw [hty, hty']
      simp only [decide_true, Bool.true_and]
      cases h with
      | none => simp [Proper] at hp
      | null _ ty1 ann a ha =>
        simp only [ionTypeOf, Option.some.injEq] at hty; subst hty
        cases h' with
        | none => simp [Proper] at hp'
        | null _ ty2 bnn a' ha' =>
          simp only [ionTypeOf, Option.some.injEq] at hty'; subst hty'
          have := hann _ _ ha ha'
          by_cases hc : annotationsEq (annotationsOf (.null (some ty2) ann)) (annotationsOf (.null (some ty2) bnn)) = true
          · rw [if_pos hc]; simp [natureEq, Alike, SameScalar, this.mp hc]
          · rw [if_neg hc]
            simp only [Alike, SameScalar, and_true]
            have hne : ¬ a = a' := fun e => hc (this.mpr e)
            simp [hne]
        | scalar _ k w ty2 bnn a' y ht ha' hy =>
          cases ht with
          | plain => simp [Proper] at hp'
          | ion =>
            simp only [ionTypeOf, Option.some.injEq] at hty'; subst hty'
            have h2 := (scalarOf_ty hy).2
            have : ¬ Alike m (.scalar f a (.null ty2)) (.scalar f' a' y) := by
              intro hal
              simp only [Alike] at hal
              exact h2 (((sameScalar_ty hal.2).2 ty2).mp rfl)
            simp [natureEq, this]
        | seq _ k elems ty2 bnn a' ns ht hs ha' hv => simp [natureEq, Alike]
        | dict _ k items bnn a' ns ht ha' hv => simp [natureEq, Alike]
      | scalar _ k w ty1 ann a x ht ha hx =>
        cases ht with
        | plain => simp [Proper] at hp
        | ion =>
          simp only [ionTypeOf, Option.some.injEq] at hty; subst hty
          cases h' with
          | none => simp [Proper] at hp'
          | null _ ty2 bnn a' ha' =>
            simp only [ionTypeOf, Option.some.injEq] at hty'; subst hty'
            have h2 := (scalarOf_ty hx).2
            have : ¬ Alike m (.scalar f a x) (.scalar f' a' (.null ty2)) := by
              intro hal
              simp only [Alike] at hal
              exact h2 (((sameScalar_ty hal.2).2 ty2).mpr rfl)
            have hn : natureEq m (equalsTo m n) (pyEq (n + 1)) (.scalar (.ion (some ty2) ann) w) (.null (some ty2) bnn) = false := by
              cases w <;> simp [natureEq, decimalsEq, floatsEq, timesEqObj, symbolsEqObj, symOf, pyEq_null]
            simp [hn, this]
          | scalar _ k w' ty2 bnn a' y ht ha' hy =>
            cases ht with
            | plain => simp [Proper] at hp'
            | ion =>
              simp only [ionTypeOf, Option.some.injEq] at hty'; subst hty'
              have h1 := hann _ _ ha ha'
              simp only [Proper] at hp hp'
              have h2 : natureEq m (equalsTo m n) (pyEq (n + 1)) _ _ = true ↔ _ := scalar_agree (m := m) (eq := equalsTo m n) (n := n) (ann := ann) (bnn := bnn) hx hy hp.2 hp'.2
              simp only [Alike, ← h1, ← h2]
              by_cases hc : annotationsEq (annotationsOf (.scalar (.ion (some ty2) ann) w)) (annotationsOf (.scalar (.ion (some ty2) bnn) w')) = true
              · rw [if_pos hc]; simp [hc]
              · rw [if_neg hc]; simp [hc]
          | seq _ k elems ty2 bnn a' ns ht hs ha' hv =>
            cases ht with
            | plain => simp [Proper] at hp'
            | ion =>
              simp only [ionTypeOf, Option.some.injEq] at hty'
              exfalso
              cases ty2 <;> simp [CType.ty] at hs hty' <;> subst hty' <;> cases w <;> simp [Simple.Spec.scalarOf, denote, Simple.Spec.asSymbol] at hx
          | dict _ k items bnn a' ns ht ha' hv =>
            cases ht with
            | plain => simp [Proper] at hp'
            | ion =>
              simp only [ionTypeOf, Option.some.injEq] at hty'
              exfalso
              subst hty'
              cases w <;> simp [Simple.Spec.scalarOf, denote, Simple.Spec.asSymbol] at hx
      | seq _ k elems ty1 ann a ns ht hs ha hv1 =>
        cases ht with
        | plain => simp [Proper] at hp
        | ion =>
          simp only [ionTypeOf, Option.some.injEq] at hty; subst hty
          cases h' with
          | none => simp [Proper] at hp'
          | null _ ty2 bnn a' ha' => simp [natureEq, sequencesEq, Alike]
          | scalar _ k w ty2 bnn a' y ht ha' hy => simp [natureEq, sequencesEq, Alike]
          | seq _ k elems' ty2 bnn a' ns' ht hs' ha' hv2 =>
            cases ht with
            | plain => simp [Proper] at hp'
            | ion =>
              simp only [ionTypeOf, Option.some.injEq] at hty'
              have hct : ty2 = ty1 := by revert hty'; cases ty1 <;> cases ty2 <;> simp [CType.ty]
              subst hct
              have h1 := hann _ _ ha ha'
              simp only [Proper] at hp hp'
              simp only [depth] at hd hd'
              have h2 : allEq (equalsTo m n) elems elems' = true ↔ AllAlike m ns ns' := seq_alike hv1 hv2 (fun x hx y hy =>
                ih (by have := depth_mem x hx; omega) (by have := depth_mem y hy; omega) (proper_mem hp.2 x hx) (proper_mem hp'.2 y hy))
              simp only [Alike, if_neg hs, ← h1, natureEq, sequencesEq, true_and, ← h2]
              by_cases hc : annotationsEq (annotationsOf (.seq (.ion (some ty2.ty) ann) elems)) (annotationsOf (.seq (.ion (some ty2.ty) bnn) elems')) = true
              · rw [if_pos hc]; simp [hc]
              · rw [if_neg hc]; simp [hc]
          | dict _ k items bnn a' ns' ht ha' hv2 =>
            cases ht with
            | plain => simp [Proper] at hp'
            | ion =>
              simp only [ionTypeOf, Option.some.injEq] at hty'
              exfalso
              cases ty1 <;> simp [CType.ty] at hs hty'
      | dict _ k items ann a ns ht ha hv1 =>
        cases ht with
        | plain => simp [Proper] at hp
        | ion =>
          simp only [ionTypeOf, Option.some.injEq] at hty; subst hty
          cases h' with
          | none => simp [Proper] at hp'
          | null _ ty2 bnn a' ha' => simp [natureEq, structsEq, Alike]
          | scalar _ k w ty2 bnn a' y ht ha' hy => simp [natureEq, structsEq, Alike]
          | seq _ k elems' ty2 bnn a' ns' ht hs' ha' hv2 =>
            cases ht with
            | plain => simp [Proper] at hp'
            | ion =>
              simp only [ionTypeOf, Option.some.injEq] at hty'
              exfalso
              cases ty2 <;> simp [CType.ty] at hs' hty'
          | dict _ k items' bnn a' ns' ht ha' hv2 =>
            cases ht with
            | plain => simp [Proper] at hp'
            | ion =>
              have h1 := hann _ _ ha ha'
              simp only [Proper] at hp hp'
              simp only [depth] at hd hd'
              have hx := fields_are hv1 hp.2
              have hy := fields_are hv2 hp'.2
              have hpx : ∀ p ∈ items, depth p.2 < n ∧ Proper p.2 ∧ WellTyped p.2 := by
                intro p hm
                obtain ⟨k, _, hk⟩ := forall₂_left hx p hm
                have := depth_mem_items p hm
                exact ⟨by omega, hk.proper, proper_typed n (by omega) hk.proper hk.value⟩
              have hpy : ∀ p ∈ items', depth p.2 < n ∧ Proper p.2 ∧ WellTyped p.2 := by
                intro p hm
                obtain ⟨k, _, hk⟩ := forall₂_left hy p hm
                have := depth_mem_items p hm
                exact ⟨by omega, hk.proper, proper_typed n (by omega) hk.proper hk.value⟩
              have h2 : structsEq (equalsTo m n) (.ion (some .struct) ann) items (.dict (.ion (some .struct) bnn) items') = true ↔ _ :=
                struct_alike hx hy (m := m)
                  (fun p hm q hq => ih (hpx p hm).1 (hpy q hq).1 (hpx p hm).2.1 (hpy q hq).2.1)
                  (fun p hm q hq => equalsTo_comm m n _ _ (hpy q hq).2.2 (hpx p hm).2.2)
              simp only [Alike, if_true, ← h1, natureEq, true_and, ← h2]
              by_cases hc : annotationsEq (annotationsOf (.dict (.ion (some .struct) ann) items)) (annotationsOf (.dict (.ion (some .struct) bnn) items')) = true
              · rw [if_pos hc]; simp [hc]
              · rw [if_neg hc]; simp [hc]
    · rw [hty, hty']
      simp only [Option.some.injEq, htt, decide_false, Bool.false_and, Bool.false_eq_true, if_false, false_iff]
      intro hal
      rcases hv with ⟨a, x, _, rfl, rfl⟩ | ⟨a, c, ns, _, rfl, rfl⟩ <;> rcases hv' with ⟨a', x', _, rfl, rfl⟩ | ⟨a', c', ns', _, rfl, rfl⟩ <;>
        simp only [Alike] at hal
      · exact htt (sameScalar_ty hal.2).1
      · exact htt (by rw [hal.2.1])

/-- C32: two objects as `load` makes them are equal exactly if their values have the same type, annotations and contents (see
`Alike`). -/
theorem C32_equals_iff (instantsOnly tupleAsSexp : Bool) (o o' : PyObj) (v v' : Simple.Spec.Val) (hp : Proper o) (hp' : Proper o')
    (hv : Simple.Spec.IsValue tupleAsSexp seenText none o v) (hv' : Simple.Spec.IsValue tupleAsSexp seenText none o' v') :
    ionEquals instantsOnly o o' = true ↔ Alike instantsOnly v v' :=
  agree instantsOnly tupleAsSexp _ (by omega) (by omega) hp hp' _ _ _ _ hv hv'

/-! ### Consequences -/

theorem sameScalar_refl (m : Bool) (x : Scalar (Option Text)) : SameScalar m x x := by
  cases x <;> simp [SameScalar]
  cases m
  · exact ⟨rfl, rfl, rfl, rfl, rfl⟩
  · simp [SamePoint]

theorem sameScalar_trans {m : Bool} {x y z : Scalar (Option Text)} (h1 : SameScalar m x y) (h2 : SameScalar m y z) : SameScalar m x z := by
  cases x <;> cases y <;> simp [SameScalar] at h1 <;> cases z <;> simp [SameScalar] at h2 ⊢
  case float.float.float x y z =>
    rcases h1 with rfl | h1 <;> rcases h2 with rfl | h2
    · exact .inl rfl
    · exact .inr h2
    · exact .inr h1
    · exact .inr ⟨h1.1, h2.2⟩
  case timestamp.timestamp.timestamp x y z =>
    cases m
    · simp only [Bool.false_eq_true, if_false] at h1 h2 ⊢
      exact ⟨h1.instant.trans h2.instant, h1.offset.trans h2.offset, h1.precision.trans h2.precision, h1.digits.trans h2.digits, h1.fraction.trans h2.fraction⟩
    · simp only [if_true, SamePoint] at h1 h2 ⊢; omega
  all_goals simp_all

theorem allAlike_iff {m : Bool} {xs : List Simple.Spec.Val} : ∀ {ys : List Simple.Spec.Val}, AllAlike m xs ys ↔ List.Forall₂ (Alike m) xs ys := by
  induction xs with
  | nil => intro ys; cases ys <;> simp [AllAlike]
  | cons x xs ih => intro ys; cases ys <;> simp [AllAlike, ih]

theorem alike_trans (m : Bool) (x : Simple.Spec.Val) : ∀ y z, Alike m x y → Alike m y z → Alike m x z := by
  refine Ion.Spec.Node.rec (motive_1 := fun x => ∀ y z, Alike m x y → Alike m y z → Alike m x z)
    (motive_2 := fun xs => ∀ x ∈ xs, ∀ y z, Alike m x y → Alike m y z → Alike m x z) ?_ ?_ ?_ ?_ x
  · intro f a v y z h1 h2
    cases y <;> simp only [Alike] at h1
    cases z <;> simp only [Alike] at h2 ⊢
    exact ⟨h1.1.trans h2.1, sameScalar_trans h1.2 h2.2⟩
  · intro f a ty xs ih y z h1 h2
    cases y with
    | scalar => simp only [Alike] at h1
    | cont f' a' ty' ys =>
      cases z with
      | scalar => simp only [Alike] at h2
      | cont f'' a'' ty'' zs =>
        simp only [Alike] at h1 h2 ⊢
        obtain ⟨rfl, rfl, h1⟩ := h1
        obtain ⟨rfl, rfl, h2⟩ := h2
        refine ⟨rfl, rfl, ?_⟩
        by_cases hs : ty = .struct
        · rw [if_pos hs] at h1 h2 ⊢
          simp only [eachIn_iff, someIs_iff] at h1 h2 ⊢
          refine ⟨h1.1.trans h2.1, ?_, ?_⟩
          · intro x hx
            obtain ⟨y, hy, hf, ha⟩ := h1.2.1 x hx
            obtain ⟨z, hz, hf', ha'⟩ := h2.2.1 y hy
            exact ⟨z, hz, hf.trans hf', ih x hx y z ha ha'⟩
          · intro z hz
            obtain ⟨y, hy, hf', ha'⟩ := h2.2.2 z hz
            obtain ⟨x, hx, hf, ha⟩ := h1.2.2 y hy
            exact ⟨x, hx, hf.trans hf', ih x hx y z ha ha'⟩
        · rw [if_neg hs] at h1 h2 ⊢
          rw [allAlike_iff] at h1 h2 ⊢
          clear hs
          induction h1 generalizing zs with
          | nil => cases h2; exact .nil
          | cons hxy _ ihh =>
            cases h2 with
            | cons hyz h2 =>
              exact .cons (ih _ (by simp) _ _ hxy hyz) (ihh (fun x hx => ih x (by simp [hx])) _ h2)
  · intro x hx; simp at hx
  · intro x xs h1 h2 y hy
    rcases List.mem_cons.mp hy with rfl | hy
    · exact h1
    · exact h2 y hy

/-- C31: on objects as `load` makes them, `ion_equals` is also transitive, in both modes. -/
theorem C31_transitive (instantsOnly tupleAsSexp : Bool) (a b c : PyObj) (va vb vc : Simple.Spec.Val) (ha : Proper a) (hb : Proper b) (hc : Proper c)
    (hva : Simple.Spec.IsValue tupleAsSexp seenText none a va) (hvb : Simple.Spec.IsValue tupleAsSexp seenText none b vb)
    (hvc : Simple.Spec.IsValue tupleAsSexp seenText none c vc)
    (hab : ionEquals instantsOnly a b = true) (hbc : ionEquals instantsOnly b c = true) : ionEquals instantsOnly a c = true := by
  rw [C32_equals_iff instantsOnly tupleAsSexp a b va vb ha hb hva hvb] at hab
  rw [C32_equals_iff instantsOnly tupleAsSexp b c vb vc hb hc hvb hvc] at hbc
  rw [C32_equals_iff instantsOnly tupleAsSexp a c va vc ha hc hva hvc]
  exact alike_trans _ _ _ _ hab hbc

theorem same_fields {R : Simple.Spec.Val → Simple.Spec.Val → Prop} {xs ys : List Simple.Spec.Val}
    (h : List.Forall₂ (fun x y => x.field = y.field ∧ R x y) xs ys) : xs.map Ion.Spec.Node.field = ys.map Ion.Spec.Node.field := by
  induction h with
  | nil => rfl
  | cons h _ ih => simp only [List.map_cons, h.1, ih]

theorem same_alike {m : Bool} {x y : Simple.Spec.Val} (h : Simple.Spec.Same x y) : x.field = y.field ∧ Alike m x y := by
  refine Simple.Spec.Same.rec (motive_1 := fun x y _ => x.field = y.field ∧ Alike m x y)
    (motive_2 := fun xs ys _ => List.Forall₂ (fun x y => x.field = y.field ∧ Alike m x y) xs ys) ?_ ?_ ?_ ?_ ?_ h
  · intro f a x
    exact ⟨rfl, by simp only [Alike]; exact ⟨trivial, sameScalar_refl m x⟩⟩
  · intro f a ty xs ys _ ih
    refine ⟨rfl, ?_⟩
    simp only [Alike, true_and]
    by_cases hs : ty = .struct
    · rw [if_pos hs]
      simp only [eachIn_iff, someIs_iff]
      refine ⟨?_, forall₂_left ih, forall₂_right ih⟩
      rw [same_fields ih]
    · rw [if_neg hs, allAlike_iff]
      exact ih.imp (fun _ _ h => h.2)
  · intro f a xs ys zs _ hp ih
    refine ⟨rfl, ?_⟩
    simp only [Alike, true_and, if_true]
    simp only [eachIn_iff, someIs_iff]
    refine ⟨?_, ?_, ?_⟩
    · rw [same_fields ih]
      exact hp.map _
    · intro x hx
      obtain ⟨y, hy, h⟩ := forall₂_left ih x hx
      exact ⟨y, hp.subset hy, h⟩
    · intro y hy
      exact forall₂_right ih y (hp.symm.subset hy)
  · exact .nil
  · intro x y xs ys _ _ h1 h2
    exact .cons h1 h2

/-- C32: what is equal in the Ion data model is equal, in both modes. -/
theorem C32_same_is_equal (instantsOnly tupleAsSexp : Bool) (o o' : PyObj) (v v' : Simple.Spec.Val) (hp : Proper o) (hp' : Proper o')
    (hv : Simple.Spec.IsValue tupleAsSexp seenText none o v) (hv' : Simple.Spec.IsValue tupleAsSexp seenText none o' v') (h : Simple.Spec.Same v v') :
    ionEquals instantsOnly o o' = true :=
  (C32_equals_iff instantsOnly tupleAsSexp o o' v v' hp hp' hv hv').mpr (same_alike h).2

theorem sameTime_exact {s t : Timestamp} (h : SameTime s t) (hs : Exact (.timestamp s)) (ht : Exact (.timestamp t)) : s = t := by
  obtain ⟨⟨p, hp⟩, he, hn⟩ := hs
  obtain ⟨⟨q, hq⟩, he', hn'⟩ := ht
  have hdt := instant_inj hp.valid hq.valid h.offset h.instant
  have hd := h.digits
  have hexp : s.frac.exp = t.frac.exp := by omega
  have hf : s.frac = t.frac := decVal_inj (hn.trans hn'.symm) hexp h.fraction
  have hfp : s.fracPrecision = t.fracPrecision := by rw [hp.digits, hq.digits, hexp]
  obtain ⟨a, b, c, d⟩ := s
  obtain ⟨a', b', c', d'⟩ := t
  simp only at hdt hf hfp
  rw [hdt, hf, hfp, show b = b' from h.precision]

theorem sameScalar_exact {x y : Scalar (Option Text)} (h : SameScalar false x y) (hx : Exact x) (hy : Exact y) : x = y := by
  cases x <;> cases y <;> simp [SameScalar] at h <;> first | (simp_all; done) | skip
  case float.float x y =>
    rcases h with rfl | h
    · rfl
    · exact absurd h.1 hx
  case timestamp.timestamp x y => rw [sameTime_exact h hx hy]

theorem everyScalars_iff {P : Scalar (Option Text) → Prop} {xs : List Simple.Spec.Val} : EveryScalars P xs ↔ ∀ x ∈ xs, EveryScalar P x := by
  induction xs with
  | nil => simp [EveryScalars]
  | cons x xs ih => simp [EveryScalars, ih]

theorem allUnique_iff {xs : List Simple.Spec.Val} : AllUnique xs ↔ ∀ x ∈ xs, UniqueFields x := by
  induction xs with
  | nil => simp [AllUnique]
  | cons x xs ih => simp [AllUnique, ih]

mutual
/-- Only the contents of structs have field names. -/
def InPlace : Simple.Spec.Val → Prop
  | .scalar _ _ _ => True
  | .cont _ _ ty xs => (ty ≠ .struct → ∀ x ∈ xs, x.field = none) ∧ AllInPlace xs
/-- All of them. -/
def AllInPlace : List Simple.Spec.Val → Prop
  | [] => True
  | x :: xs => InPlace x ∧ AllInPlace xs
end

theorem allInPlace_iff {xs : List Simple.Spec.Val} : AllInPlace xs ↔ ∀ x ∈ xs, InPlace x := by
  induction xs with
  | nil => simp [AllInPlace]
  | cons x xs ih => simp [AllInPlace, ih]

theorem value_inPlace {b : Bool} (n : Nat) : ∀ {o : PyObj} {f : Option (Option Text)} {v : Simple.Spec.Val}, depth o < n → Proper o →
    Simple.Spec.IsValue b seenText f o v → InPlace v := by
  induction n with
  | zero => intro o f v h; omega
  | succ n ih =>
    intro o f v hd hp h
    cases h with
    | none => simp [InPlace]
    | null => simp [InPlace]
    | scalar => simp [InPlace]
    | seq _ k elems ty ann a ns ht hs ha hv =>
      cases ht with
      | plain => simp [Proper] at hp
      | ion =>
        simp only [Proper] at hp
        simp only [depth] at hd
        simp only [InPlace, allInPlace_iff]
        constructor
        · intro _ x hx
          obtain ⟨o, _, hk⟩ := forall₂_right (values_forall hv) x hx
          exact value_field hk
        · intro x hx
          obtain ⟨o, ho, hk⟩ := forall₂_right (values_forall hv) x hx
          exact ih (by have := depth_mem o ho; omega) (proper_mem hp.2 o ho) hk
    | dict _ k items ann a ns ht ha hv =>
      cases ht with
      | plain => simp [Proper] at hp
      | ion =>
        simp only [Proper] at hp
        simp only [depth] at hd
        simp only [InPlace, allInPlace_iff]
        refine ⟨fun h => absurd rfl h, ?_⟩
        intro x hx
        obtain ⟨p, hm, hk⟩ := forall₂_right (fields_are hv hp.2) x hx
        exact ih (by have := depth_mem_items p hm; omega) hk.proper hk.value

theorem choose_list {α β : Type} {R : α → β → Prop} {xs : List α} {ys : List β} (h : ∀ x ∈ xs, ∃ y ∈ ys, R x y) :
    ∃ ws, List.Forall₂ R xs ws ∧ ws ⊆ ys := by
  induction xs with
  | nil => exact ⟨[], .nil, by simp⟩
  | cons x xs ih =>
    obtain ⟨ws, h1, h2⟩ := ih (fun x hx => h x (by simp [hx]))
    obtain ⟨y, hy, hr⟩ := h x (by simp)
    exact ⟨y :: ws, .cons hr h1, by simp [hy, h2]⟩

theorem sameAll_of {xs ys : List Simple.Spec.Val} (h : List.Forall₂ Simple.Spec.Same xs ys) : Simple.Spec.SameAll xs ys := by
  induction h with
  | nil => exact .nil
  | cons h _ ih => exact .cons _ _ _ _ h ih

theorem alike_same (x : Simple.Spec.Val) : ∀ y : Simple.Spec.Val, x.field = y.field → Alike false x y → UniqueFields x → EveryScalar Exact x →
    EveryScalar Exact y → InPlace x → InPlace y → Simple.Spec.Same x y := by
  refine Ion.Spec.Node.rec
    (motive_1 := fun x => ∀ y : Simple.Spec.Val, x.field = y.field → Alike false x y → UniqueFields x → EveryScalar Exact x → EveryScalar Exact y → InPlace x → InPlace y → Simple.Spec.Same x y)
    (motive_2 := fun xs => ∀ x ∈ xs, ∀ y : Simple.Spec.Val, x.field = y.field → Alike false x y → UniqueFields x → EveryScalar Exact x →
      EveryScalar Exact y → InPlace x → InPlace y → Simple.Spec.Same x y) ?_ ?_ ?_ ?_ x
  · intro f a v y hf h _ hx hy _ _
    cases y with
    | cont => simp only [Alike] at h
    | scalar f' a' w =>
      simp only [Alike] at h
      simp only [Ion.Spec.Node.field] at hf
      simp only [EveryScalar] at hx hy
      obtain ⟨rfl, h⟩ := h
      subst hf
      rw [sameScalar_exact h hx hy]
      exact .scalar _ _ _
  · intro f a ty xs ih y hf h hu hx hy hix hiy
    cases y with
    | scalar => simp only [Alike] at h
    | cont f' a' ty' ys =>
      simp only [Alike] at h
      simp only [Ion.Spec.Node.field] at hf
      simp only [EveryScalar, everyScalars_iff] at hx hy
      simp only [UniqueFields, allUnique_iff] at hu
      obtain ⟨rfl, rfl, h⟩ := h
      subst hf
      by_cases hs : ty = .struct
      · rw [if_pos hs] at h
        subst hs
        simp only [eachIn_iff] at h
        have hnd := hu.1 rfl
        have h1 : ∀ x ∈ xs, ∃ y ∈ ys, x.field = y.field ∧ Simple.Spec.Same x y := by
          intro x hxm
          obtain ⟨y, hym, hff, ha⟩ := h.2.1 x hxm
          simp only [InPlace, allInPlace_iff] at hix hiy
          exact ⟨y, hym, hff, ih x hxm y hff ha (hu.2 x hxm) (hx x hxm) (hy y hym) (hix.2 x hxm) (hiy.2 y hym)⟩
        obtain ⟨ws, hws, hsub⟩ := choose_list h1
        have hfields : xs.map Ion.Spec.Node.field = ws.map Ion.Spec.Node.field := same_fields hws
        have hwn : ws.Nodup := List.Nodup.of_map Ion.Spec.Node.field (hfields ▸ hnd)
        have hlen : ys.length ≤ ws.length := by
          have e1 := h.1.length_eq
          have e2 := congrArg List.length hfields
          simp at e1 e2
          omega
        have hperm : ws.Perm ys := (hwn.subperm hsub).perm_of_length_le hlen
        exact .struct _ _ _ ws _ (sameAll_of (hws.imp (fun _ _ h => h.2))) hperm
      · rw [if_neg hs, allAlike_iff] at h
        refine .seq _ _ _ _ _ (sameAll_of ?_)
        simp only [InPlace, allInPlace_iff] at hix hiy
        have hix1 := hix.1 hs
        have hiy1 := hiy.1 hs
        replace hix := hix.2
        replace hiy := hiy.2
        replace hu := hu.2
        clear hs
        induction h with
        | nil => exact .nil
        | cons hxy _ ihh =>
          refine .cons (ih _ (by simp) _ ?_ hxy (hu _ (by simp)) (hx _ (by simp)) (hy _ (by simp)) (hix _ (by simp)) (hiy _ (by simp))) (ihh ?_ ?_ ?_ ?_ ?_ ?_ ?_ ?_)
          · rw [hix1 _ (by simp), hiy1 _ (by simp)]
          · exact fun x hm => ih x (by simp [hm])
          · exact fun x hm => hx x (by simp [hm])
          · exact fun x hm => hy x (by simp [hm])
          · exact fun x hm => hix1 x (by simp [hm])
          · exact fun x hm => hiy1 x (by simp [hm])
          · exact fun x hm => hix x (by simp [hm])
          · exact fun x hm => hiy x (by simp [hm])
          · exact fun x hm => hu x (by simp [hm])
  · intro x hx; simp at hx
  · intro x xs h1 h2 y hy
    rcases List.mem_cons.mp hy with rfl | hy
    · exact h1
    · exact h2 y hy

/-- C32: what is equal is equal in the Ion data model, for values without repeated fields, without NaN, and with at most six digits
of the seconds in timestamps. -/
theorem C32_equal_is_same_partial (tupleAsSexp : Bool) (o o' : PyObj) (v v' : Simple.Spec.Val) (hp : Proper o) (hp' : Proper o')
    (hv : Simple.Spec.IsValue tupleAsSexp seenText none o v) (hv' : Simple.Spec.IsValue tupleAsSexp seenText none o' v')
    (hu : UniqueFields v) (hx : EveryScalar Exact v) (hx' : EveryScalar Exact v') (h : ionEquals false o o' = true) : Simple.Spec.Same v v' := by
  rw [C32_equals_iff false tupleAsSexp o o' v v' hp hp' hv hv'] at h
  exact alike_same v v' ((value_field hv).trans (value_field hv').symm) h hu hx hx' (value_inPlace _ (Nat.lt_succ_self _) hp hv)
    (value_inPlace _ (Nat.lt_succ_self _) hp' hv')

/-- A struct with an annotation, as loaded, and its value. -/
def sampleStruct (x y : Int) : PyObj :=
  .dict (.ion (some .struct) [.tok ⟨some [97], some 10, none⟩])
    [(some (.text [98]), .scalar (.ion (some .int) []) (.int x)), (some (.text [99]), .scalar (.ion (some .int) []) (.int y))]

/-- The value of `sampleStruct`. -/
def sampleStructValue (x y : Int) : Simple.Spec.Val :=
  .cont none [some [97]] .struct [.scalar (some (some [98])) [] (.int x), .scalar (some (some [99])) [] (.int y)]

/-- The hypotheses of the theorems above are met. -/
example (x y : Int) : Proper (sampleStruct x y) ∧ Simple.Spec.IsValue false seenText none (sampleStruct x y) (sampleStructValue x y) ∧
    UniqueFields (sampleStructValue x y) ∧ EveryScalar Exact (sampleStructValue x y) := by
  refine ⟨?_, ?_, ?_, ?_⟩
  · simp [sampleStruct, Proper, AllProperItems, PlainKey, Known, ProperValue]
  · refine .dict none _ _ [.tok ⟨some [97], some 10, none⟩] [some [97]] _ (.ion _ _) rfl ?_
    refine .cons _ (some [98]) _ _ _ _ (.text _ (.inl (by simp))) ?_ (.cons _ (some [99]) _ _ _ _ (.text _ (.inl (by simp))) ?_ .nil)
    · exact .scalar _ _ _ .int [] [] _ (.ion _ _) rfl rfl
    · exact .scalar _ _ _ .int [] [] _ (.ion _ _) rfl rfl
  · simp [sampleStructValue, UniqueFields, AllUnique, Ion.Spec.Node.field]
  · simp [sampleStructValue, EveryScalar, EveryScalars, Exact]

/-! ### Differences from the data model -/

/-- An int, as loaded. -/
def ionInt (i : Int) : PyObj := .scalar (.ion (some .int) []) (.int i)

/-- C32, negative: `{a:1, a:1, a:2}` equals `{a:1, a:2, a:2}`, since the values of a repeated field are compared as sets. -/
theorem C32_repeated_fields :
    ionEquals false (.dict (.ion (some .struct) []) [(some (.text [97]), ionInt 1), (some (.text [97]), ionInt 1), (some (.text [97]), ionInt 2)])
      (.dict (.ion (some .struct) []) [(some (.text [97]), ionInt 1), (some (.text [97]), ionInt 2), (some (.text [97]), ionInt 2)]) = true := by
  decide +kernel

/-- A timestamp with a fraction of seconds `c · 10^-e`, truncated to microseconds. -/
def sampleTime (micro c : Nat) (e : Int) : PyObj :=
  .scalar (.ion (some .timestamp) []) (.timestamp (.ts ⟨⟨2000, 1, 1, 0, 0, 0, micro, some 0⟩, some .second, min e 6, ⟨false, c, -e⟩⟩))

/-- C32, negative: seconds with six and with seven digits of the same value are equal, while those with five and six are not. -/
theorem C32_digits_beyond_microseconds :
    ionEquals false (sampleTime 123450 123450 6) (sampleTime 123450 1234500 7) = true ∧
    ionEquals false (sampleTime 123450 12345 5) (sampleTime 123450 123450 6) = false := by
  decide +kernel

/-- C32, negative: points in time are compared to the microsecond only. -/
theorem C32_instants_truncated :
    ionEquals true (sampleTime 123456 1234561 7) (sampleTime 123456 1234569 7) = true := by
  decide +kernel

/-- C32, negative: among objects without Ion nature, `True` equals `1`, although their Ion types differ; and `1` with Ion type int
equals a plain `1.0`. -/
theorem C32_plain_numbers :
    ionEquals false (.scalar (.plain .bool) (.bool true)) (.scalar (.plain .int) (.int 1)) = true ∧
    ionEquals false (ionInt 1) (.scalar (.plain .float) (.float 0x3FF0000000000000)) = true := by
  decide +kernel

/-- C32: an object with annotations does not equal one that cannot have any, in either order: annotations count even against plain
Python objects. -/
theorem C32_annotations_against_plain (instantsOnly : Bool) (a b : PyObj) (ha : isIon a = true) (hb : isIon b = false) (h : annotationsOf a ≠ []) :
    ionEquals instantsOnly a b = false ∧ ionEquals instantsOnly b a = false := by
  have h1 : (annotationsOf a).isEmpty = false := by simpa using h
  simp [ionEquals, equalsTo, equalsStep, firstLoop, ha, hb, h1]

/-- `a::1` does not equal `1`, while the `1` without annotations does. -/
example : ionEquals false (.scalar (.ion (some .int) [.text [97]]) (.int 1)) (.scalar (.plain .int) (.int 1)) = false ∧
    ionEquals false (.scalar (.ion (some .int) []) (.int 1)) (.scalar (.plain .int) (.int 1)) = true :=
  ⟨(C32_annotations_against_plain false _ _ rfl rfl (by simp [annotationsOf])).1, by decide +kernel⟩

/-! ### Symbols with unknown text -/

/-- C32: symbols are equal if they have the same text; if both have unknown text, they must come from the same import location (or
both from none), and both or neither must be the symbol zero. -/
theorem C32_symbols (a b : SymArg) : symbolsEq a b = true ↔
    symText a = symText b ∧ (symText a = none → symLocation a = symLocation b ∧ (symSid a = some 0 ↔ symSid b = some 0)) := by
  unfold symbolsEq
  by_cases h : symText a = symText b <;> by_cases h1 : symText a = none <;> by_cases h2 : symLocation a = symLocation b <;>
    by_cases h3 : symSid a = some 0 <;> by_cases h4 : symSid b = some 0 <;> simp [h, h1, h2, h3, h4]

/-! ## Decimals made of integers -/

/-- `Decimal(n) == n`. -/
theorem ofInt_equals (n : Int) : valEq (.decimal (Dec.ofInt n)) (.int n) = true ∧ (Dec.ofInt n).exp = 0 := by
  refine ⟨?_, rfl⟩
  have h : decVal (Dec.ofInt n) = n := by
    rcases Int.natAbs_eq n with h | h
    · have hn : ¬ n < 0 := by omega
      generalize n.natAbs = m at h
      subst h
      simp [decVal, Dec.ofInt]
    · by_cases hn : n < 0
      · generalize hm : n.natAbs = m at h
        simp [decVal, Dec.ofInt, hn, hm]
        subst h; simp
      · have : n = 0 := by omega
        subst this
        simp [decVal, Dec.ofInt]
  simp [valEq, numVal, numEq, h]

end Ion.Equivalence
