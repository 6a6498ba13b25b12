import Verif.Props.ManagedReading
import Verif.Props.ManagedWriter
set_option linter.unusedSimpArgs false
/-!
# Properties C12 (events) and C15: what the binary writer writes, the binary reader reads back
-/
namespace Ion.Spec
open Ion

/-! ## Renaming symbols -/

/-- The symbol of a scalar renamed. -/
def Scalar.map {σ τ : Type} (f : σ → τ) : Scalar σ → Scalar τ
  | .null t => .null t | .bool b => .bool b | .int i => .int i | .float b => .float b | .decimal d => .decimal d
  | .timestamp t => .timestamp t | .symbol s => .symbol (f s) | .string t => .string t | .clob b => .clob b | .blob b => .blob b

mutual
/-- All symbols of a value (field names, annotations, symbol values, at any depth) renamed. -/
def Node.map {σ τ : Type} (f : σ → τ) : Node σ → Node τ
  | .scalar fl a x => .scalar (fl.map f) (a.map f) (x.map f)
  | .cont fl a ty items => .cont (fl.map f) (a.map f) ty (mapAll f items)

/-- `Node.map` for a list. -/
def mapAll {σ τ : Type} (f : σ → τ) : List (Node σ) → List (Node τ)
  | [] => []
  | n :: ns => n.map f :: mapAll f ns
end

theorem mapAll_eq {σ τ : Type} (f : σ → τ) (ns : List (Node σ)) : mapAll f ns = ns.map (Node.map f) := by
  induction ns with
  | nil => rfl
  | cons n ns ih => simp [mapAll, ih]

def OpenNode.map {σ τ : Type} (f : σ → τ) (o : OpenNode σ) : OpenNode τ :=
  ⟨o.field.map f, o.ann.map f, o.ty, o.before.map (Node.map f)⟩

def Tree.map {σ τ : Type} (f : σ → τ) (t : Tree σ) : Tree τ := ⟨t.cur.map (Node.map f), t.opens.map (OpenNode.map f)⟩

/-- The field name and the annotations of an event. -/
def InEvent (a : SymArg) (e : IonEvent) : Prop := e.fieldName = some a ∨ a ∈ e.annotations

section
variable {σ τ : Type} {sym : SymArg → Option σ} {sym' : SymArg → Option τ} {f : σ → τ}

theorem allSome_map (as : List SymArg) (h : ∀ a ∈ as, ∀ s, sym a = some s → sym' a = some (f s)) :
    ∀ ss, allSome sym as = some ss → allSome sym' as = some (ss.map f) := by
  induction as with
  | nil => intro ss hs; cases hs; rfl
  | cons a as ih =>
    intro ss hs
    simp only [allSome] at hs ⊢
    cases ha : sym a with
    | none => rw [ha] at hs; simp at hs
    | some s =>
      rw [ha] at hs
      cases has : allSome sym as with
      | none => rw [has] at hs; simp at hs
      | some ss' =>
        rw [has] at hs
        cases hs
        rw [h a (by simp) s ha, ih (fun a' ha' => h a' (by simp [ha'])) ss' has]
        rfl

theorem fieldOf_map (b : Bool) (fn : Option SymArg) (h : ∀ a, fn = some a → ∀ s, sym a = some s → sym' a = some (f s)) :
    ∀ x, fieldOf sym b fn = some x → fieldOf sym' b fn = some (x.map f) := by
  intro x hx
  unfold fieldOf at hx ⊢
  cases b with
  | false => simp only [Bool.false_eq_true, if_false, Option.some.injEq] at hx ⊢; subst hx; rfl
  | true =>
    simp only [if_true] at hx ⊢
    cases fn with
    | none => simp at hx
    | some a =>
      simp only [Option.bind_some] at hx ⊢
      cases hs : sym a with
      | none => rw [hs] at hx; simp at hx
      | some s => rw [hs] at hx; cases hx; rw [h a rfl s hs]; rfl

theorem denote_map {symTok : SymbolToken → Option σ} {symTok' : SymbolToken → Option τ} (ty : IonType) (v : Option PyVal)
    (h : ∀ k, ty = .symbol → v = some (.sym k) → ∀ s, symTok k = some s → symTok' k = some (f s)) :
    ∀ x, denote symTok ty v = some x → denote symTok' ty v = some (x.map f) := by
  intro x hx
  cases v with
  | none => cases hx; rfl
  | some v =>
    cases ty <;> cases v <;> simp only [denote, reduceCtorEq, Option.some.injEq] at hx ⊢ <;> first | (subst hx; rfl) | skip
    rename_i k
    cases hk : symTok k with
    | none => rw [hk] at hx; simp at hx
    | some s => rw [hk] at hx; cases hx; rw [h k rfl rfl s hk]; rfl

theorem Tree.inStruct_map (t : Tree σ) : (t.map f).inStruct = t.inStruct := by
  obtain ⟨cur, opens⟩ := t
  cases opens <;> rfl

theorem Tree.step_map {symTok : SymbolToken → Option σ} {symTok' : SymbolToken → Option τ} (e : IonEvent)
    (h : ∀ a, InEvent a e → ∀ s, sym a = some s → sym' a = some (f s))
    (hk : ∀ k, e.ionType = some .symbol → e.value = .ok (some (.sym k)) → ∀ s, symTok k = some s → symTok' k = some (f s)) :
    ∀ (t t1 : Tree σ), t.step sym symTok e = some t1 → (t.map f).step sym' symTok' e = some (t1.map f) := by
  intro t t1 hs
  have hfield := fieldOf_map (f := f) (sym := sym) (sym' := sym') t.inStruct e.fieldName (fun a ha => h a (.inl ha))
  have hann := allSome_map (f := f) (sym := sym) (sym' := sym') e.annotations (fun a ha => h a (.inr ha))
  unfold Tree.step at hs ⊢
  cases het : e.eventType with
  | scalar =>
    simp only [het, Tree.inStruct_map] at hs ⊢
    cases hf : fieldOf sym t.inStruct e.fieldName with
    | none => rw [hf] at hs; simp at hs
    | some fl =>
      cases ha : allSome sym e.annotations with
      | none => rw [hf, ha] at hs; simp at hs
      | some as =>
        cases hty : e.ionType with
        | none => rw [hf, ha, hty] at hs; simp at hs
        | some ty =>
          cases hv : e.value with
          | error err => rw [hf, ha, hty, hv] at hs; simp at hs
          | ok v =>
            rw [hf, ha, hty, hv] at hs
            simp only at hs
            cases hd : denote symTok ty v with
            | none => rw [hd] at hs; simp at hs
            | some x =>
              rw [hd] at hs
              cases hs
              rw [hfield _ hf, hann _ ha]
              simp only
              rw [denote_map (f := f) (symTok' := symTok') ty v (fun k ht hk' => hk k (by rw [hty, ht]) (by rw [hv, hk'])) x hd]
              simp [Tree.map, Node.map]
  | containerStart =>
    simp only [het, Tree.inStruct_map] at hs ⊢
    cases hf : fieldOf sym t.inStruct e.fieldName with
    | none => rw [hf] at hs; simp at hs
    | some fl =>
      cases ha : allSome sym e.annotations with
      | none => rw [hf, ha] at hs; simp at hs
      | some as =>
        cases hty : e.ionType.bind ctype with
        | none => rw [hf, ha, hty] at hs; simp at hs
        | some ty =>
          rw [hf, ha, hty] at hs
          cases hs
          rw [hfield _ hf, hann _ ha]
          simp [Tree.map, OpenNode.map]
  | containerEnd =>
    simp only [het] at hs ⊢
    obtain ⟨cur, opens⟩ := t
    cases opens with
    | nil => simp at hs
    | cons o os =>
      simp only [Option.some.injEq] at hs
      subst hs
      simp [Tree.map, Node.map, mapAll_eq, OpenNode.map]
  | incomplete => rw [het] at hs; simp at hs
  | streamEnd => rw [het] at hs; simp at hs
  | versionMarker => rw [het] at hs; simp at hs

theorem Tree.run_map {symTok : SymbolToken → Option σ} {symTok' : SymbolToken → Option τ} (es : List IonEvent)
    (h : ∀ e ∈ es, ∀ a, InEvent a e → ∀ s, sym a = some s → sym' a = some (f s))
    (hk : ∀ e ∈ es, ∀ k, e.ionType = some .symbol → e.value = .ok (some (.sym k)) → ∀ s, symTok k = some s → symTok' k = some (f s)) :
    ∀ (t t1 : Tree σ), t.run sym symTok es = some t1 → (t.map f).run sym' symTok' es = some (t1.map f) := by
  induction es with
  | nil => intro t t1 hr; cases hr; rfl
  | cons e es ih =>
    intro t t1 hr
    simp only [Tree.run] at hr ⊢
    cases hs : t.step sym symTok e with
    | none => rw [hs] at hr; cases hr
    | some t' =>
      rw [hs] at hr
      rw [Tree.step_map e (h e (by simp)) (hk e (by simp)) t t' hs]
      exact ih (fun e' he' => h e' (by simp [he'])) (fun e' he' => hk e' (by simp [he'])) t' t1 hr

/-- If every symbol is renamed, so are the values. -/
theorem valuesOf_map {symTok : SymbolToken → Option σ} {symTok' : SymbolToken → Option τ} (es : List IonEvent)
    (h : ∀ e ∈ es, ∀ a, InEvent a e → ∀ s, sym a = some s → sym' a = some (f s))
    (hk : ∀ e ∈ es, ∀ k, e.ionType = some .symbol → e.value = .ok (some (.sym k)) → ∀ s, symTok k = some s → symTok' k = some (f s)) (vs : List (Node σ))
    (hv : valuesOf sym symTok es = some vs) : valuesOf sym' symTok' es = some (vs.map (Node.map f)) := by
  unfold valuesOf at hv ⊢
  cases hr : Tree.empty.run sym symTok es with
  | none => rw [hr] at hv; cases hv
  | some t =>
    rw [hr] at hv
    have := Tree.run_map es h hk _ _ hr
    rw [show (Tree.empty : Tree σ).map f = Tree.empty from rfl] at this
    rw [this]
    obtain ⟨cur, opens⟩ := t
    cases opens with
    | nil => cases hv; rfl
    | cons o os => cases hv
end

end Ion.Spec

namespace Ion.Spec
open Ion Ion.RawReader

/-! ## The scalars of a document -/

theorem AllScalars.append {P : Scalar Nat → Prop} {a b : List (Node Nat)} (ha : AllScalars P a) (hb : AllScalars P b) :
    AllScalars P (a ++ b) := by
  induction ha with
  | nil => exact hb
  | scalar f a x ns h _ ih => exact .scalar f a x _ h ih
  | cont f a ty items ns h _ _ ih => exact .cont f a ty items _ h ih

theorem valuesOf_all {P : Scalar Nat → Prop} {sym : SymArg → Option Nat} {symTok : SymbolToken → Option Nat} (es : List IonEvent)
    (h : ∀ e ∈ es, e.eventType = .scalar → ∀ ty v x, e.ionType = some ty → e.value = .ok v → denote symTok ty v = some x → P x)
    (vs : List (Node Nat)) (hv : valuesOf sym symTok es = some vs) : AllScalars P vs := by
  have step : ∀ e ∈ es, ∀ t t1 : Tree Nat, t.step sym symTok e = some t1 →
      (AllScalars P t.cur ∧ ∀ o ∈ t.opens, AllScalars P o.before) → (AllScalars P t1.cur ∧ ∀ o ∈ t1.opens, AllScalars P o.before) := by
    intro e he t t1 hs ⟨h1, h2⟩
    unfold Tree.step at hs
    cases het : e.eventType with
    | scalar =>
      simp only [het] at hs
      split at hs
      · rename_i f a ty v _ _ hty hv'
        cases hd : denote symTok ty v with
        | none => rw [hd] at hs; simp at hs
        | some x =>
          rw [hd] at hs
          cases hs
          exact ⟨h1.append (.scalar _ _ _ _ (h e he het ty v x hty hv' hd) .nil), h2⟩
      · cases hs
    | containerStart =>
      simp only [het] at hs
      split at hs
      · cases hs
        refine ⟨.nil, ?_⟩
        intro o ho
        rcases List.mem_cons.1 ho with rfl | ho
        · exact h1
        · exact h2 o ho
      · cases hs
    | containerEnd =>
      simp only [het] at hs
      obtain ⟨cur, opens⟩ := t
      cases opens with
      | nil => cases hs
      | cons o os =>
        cases hs
        exact ⟨(h2 o (by simp)).append (.cont _ _ _ _ _ h1 .nil), fun o' ho' => h2 o' (by simp [ho'])⟩
    | incomplete => rw [het] at hs; simp at hs
    | streamEnd => rw [het] at hs; simp at hs
    | versionMarker => rw [het] at hs; simp at hs
  have run : ∀ (es' : List IonEvent), (∀ e ∈ es', e ∈ es) → ∀ t t1 : Tree Nat, t.run sym symTok es' = some t1 →
      (AllScalars P t.cur ∧ ∀ o ∈ t.opens, AllScalars P o.before) → (AllScalars P t1.cur ∧ ∀ o ∈ t1.opens, AllScalars P o.before) := by
    intro es'
    induction es' with
    | nil => intro _ t t1 hr hi; cases hr; exact hi
    | cons e es' ih =>
      intro hsub t t1 hr hi
      simp only [Tree.run] at hr
      cases hs : t.step sym symTok e with
      | none => rw [hs] at hr; cases hr
      | some t' =>
        rw [hs] at hr
        exact ih (fun e' he' => hsub e' (by simp [he'])) t' t1 hr (step e (hsub e (by simp)) t t' hs hi)
  unfold valuesOf at hv
  cases hr : Tree.empty.run sym symTok es with
  | none => rw [hr] at hv; cases hv
  | some t =>
    rw [hr] at hv
    obtain ⟨cur, opens⟩ := t
    cases opens with
    | nil => cases hv; exact (run es (fun _ h => h) _ _ hr ⟨.nil, by simp [Tree.empty]⟩).1
    | cons o os => cases hv

/-- The value of a scalar event (if any) is one that the reader preserves (C05): decimals within the limits of the decimal
context. -/
def ReadableEvent (e : IonEvent) : Prop :=
  e.eventType = .scalar → ∀ d, e.value = .ok (some (.decimal d)) → Scalars.ReadRange d

theorem frac_timeValue {v : Scalars.TimeVal} (h : Scalars.RegularTime v) : Scalars.FracOk (timeValue v).frac := by
  cases v with
  | ts t =>
    simp only [timeValue]
    split
    · exact h.2.2.1
    · simp only; decide
  | dt d =>
    obtain ⟨hv, -⟩ := h
    simp only [timeValue, Scalars.FracOk]
    have : d.micro < 1000000 := hv.2.2.2.2.2.2.2.2.2
    exact ⟨by omega, by omega, by simp⟩

end Ion.Spec

namespace Ion.Spec
open Ion Ion.RawReader
open Ion.ManagedReader (Event)

/-! ## The texts of symbols -/

/-- The text of a symbol given to a writer; `some none` for a symbol with unknown text.  A token without text stands for the
symbol with its ID; `t0` is what the IDs mean. -/
def argText (t0 : Table) : SymArg → Option (Option Text)
  | .text s => some (some s)
  | .tok k => match k.text, k.sid with
    | some s, _ => some (some s)
    | none, some n => match t0.text n with
      | .ok x => some x
      | .error _ => none
    | none, none => none

/-- The values described by events given to a writer. -/
def valuesGiven (t0 : Table) (evs : List IonEvent) : Option (List (Node (Option Text))) :=
  valuesOf (argText t0) (fun k => argText t0 (.tok k)) (evs.map asToken)

/-- An event of a reader as an event; `none` if reading one of its attributes raises an exception. -/
def seenEvent (e : Event) : Option IonEvent :=
  match e.fieldName, e.annotations, e.value with
  | .ok f, .ok a, .ok v => some { eventType := e.eventType, ionType := e.ionType, value := .ok v, fieldName := f.map .tok, annotations := a.map .tok, depth := e.depth }
  | _, _, _ => none

/-- The text of a symbol given by a reader. -/
def seenText : SymArg → Option (Option Text)
  | .text s => some (some s)
  | .tok k => some k.text

/-- The values described by events of a reader. -/
def valuesSeen (es : List Event) : Option (List (Node (Option Text))) :=
  (allSome seenEvent es).bind (valuesOf seenText (fun k => some k.text))

/-- Values that a reader takes for system values although the writer was given them as values: the symbol `$ion_1_0`
without annotations, and structs whose first annotation is `$ion_symbol_table`. -/
def SystemLike : Node (Option Text) → Prop
  | .scalar _ [] (.symbol (some s)) => s = TEXT_ION_1_0
  | .cont _ (some s :: _) .struct _ => s = TEXT_ION_SYMBOL_TABLE
  | _ => False

/-! ## Auxiliary: well-formed trees -/

/-- Field names stand exactly inside structs; timestamps are in normal form. -/
inductive Formed : Bool → List (Node Nat) → Prop
  | nil (s : Bool) : Formed s []
  | scalar (s : Bool) (f : Option Nat) (a : List Nat) (x : Scalar Nat) (ns : List (Node Nat)) : f.isSome = s →
      (∀ t, x = .timestamp t → ∃ p, IsTimeValue t p) → Formed s ns → Formed s (.scalar f a x :: ns)
  | cont (s : Bool) (f : Option Nat) (a : List Nat) (ty : CType) (items ns : List (Node Nat)) : f.isSome = s →
      Formed (ty = .struct) items → Formed s ns → Formed s (.cont f a ty items :: ns)

theorem formed_items {s : Bool} {bs : Bytes} {items : List (Node Nat)} (h : IsItems s bs items) : Formed s items := by
  induction h with
  | nil s => exact .nil s
  | pad s f p body rest items _ _ _ ih => exact ih
  | scalar s f inner v rest field ann x items h1 h2 h3 _ ih =>
    refine .scalar s field ann x items ?_ ?_ ih
    · cases h1 <;> rfl
    · intro t ht
      subst ht
      cases h2 with
      | timestamp _ body _ _ hb => obtain ⟨p, -, -, -, h, -⟩ := hb; exact ⟨p, h⟩
  | cont s f body inner v rest field ann ty ch items o h1 h2 h3 h4 h5 _ ih1 ih2 =>
    refine .cont s field ann ty ch items ?_ ih1 ih2
    cases h1 <;> rfl

theorem Formed.suffix {s : Bool} (a : List (Node Nat)) {b : List (Node Nat)} (h : Formed s (a ++ b)) : Formed s b := by
  induction a with
  | nil => exact h
  | cons n a ih =>
    rw [List.cons_append] at h
    cases h with
    | scalar _ _ _ _ _ _ _ h => exact ih h
    | cont _ _ _ _ _ _ _ _ h => exact ih h

theorem timeValue_normal {t : Timestamp} {p : Precision} (h : IsTimeValue t p) : timeValue (.ts t) = t := by
  obtain ⟨dt, pr, fp, fr⟩ := t
  have h1 := h.precision
  simp only at h1
  subst h1
  simp only [timeValue, Option.getD_some]
  by_cases hp : p = .second
  · subst hp; simp
  · have h2 := h.coarse hp
    have h3 := h.digits
    have h4 := h.cut
    simp only at h2 h3 h4
    subst h2
    simp only [hp, if_false, h4, h3]
    rfl

/-- The texts of a symbol that a table knows. -/
theorem find_of_text {t : Table} {n : Nat} {x : Option Text} (h : t.text n = .ok x) : ∃ k, t.find n = .ok k ∧ k.text = x := by
  unfold Table.text at h
  cases hf : t.find n with
  | error err => rw [hf] at h; cases h
  | ok k => rw [hf] at h; cases h; exact ⟨k, rfl, rfl⟩

theorem findAll_of_text {t : Table} : ∀ {ns : List Nat} {xs : List (Option Text)}, ns.map t.text = xs.map .ok →
    ∃ ks, t.findAll ns = .ok ks ∧ allSome seenText (ks.map .tok) = some xs := by
  intro ns
  induction ns with
  | nil => intro xs h; cases xs with
    | nil => exact ⟨[], rfl, rfl⟩
    | cons _ _ => simp at h
  | cons n ns ih =>
    intro xs h
    cases xs with
    | nil => simp at h
    | cons x xs =>
      simp only [List.map_cons, List.cons.injEq] at h
      obtain ⟨k, hk, hx⟩ := find_of_text h.1
      obtain ⟨ks, h1, h2⟩ := ih h.2
      refine ⟨k :: ks, by simp [Table.findAll, hk, h1, bind, Except.bind, pure, Except.pure], ?_⟩
      simp [allSome, seenText, h2, hx]

theorem field_of_text {t : Table} {f : Option Nat} {x : Option (Option Text)} (h : f.map t.text = x.map .ok) :
    ∃ k : Option SymbolToken, t.field f = .ok k ∧ k.map (·.text) = x := by
  cases f with
  | none => cases x with
    | none => exact ⟨none, rfl, rfl⟩
    | some _ => simp at h
  | some n =>
    cases x with
    | none => simp at h
    | some x =>
      simp only [Option.map_some, Option.some.injEq] at h
      obtain ⟨k, hk, hx⟩ := find_of_text h
      exact ⟨some k, by simp [Table.field, hk, bind, Except.bind, pure, Except.pure], by simp [hx]⟩

theorem allSome_append {α β : Type} {f : α → Option β} {as bs : List α} {xs ys : List β} (ha : allSome f as = some xs)
    (hb : allSome f bs = some ys) : allSome f (as ++ bs) = some (xs ++ ys) := by
  induction as generalizing xs with
  | nil => cases ha; simpa using hb
  | cons a as ih =>
    simp only [allSome, List.cons_append] at ha ⊢
    cases h1 : f a with
    | none => rw [h1] at ha; simp at ha
    | some x =>
      cases h2 : allSome f as with
      | none => rw [h1, h2] at ha; simp at ha
      | some xs' => rw [h1, h2] at ha; cases ha; rw [ih h2]; rfl

theorem ctype_ty (ty : CType) : ctype ty.ty = some ty := by cases ty <;> rfl

theorem seen_field {s : Bool} {t : Table} {f : Option Nat} {x : Option (Option Text)} (hs : f.isSome = s)
    (h : f.map t.text = x.map .ok) :
    ∃ k : Option SymbolToken, t.field f = .ok k ∧ fieldOf seenText s (k.map .tok) = some x := by
  obtain ⟨k, h1, h2⟩ := field_of_text h
  refine ⟨k, h1, ?_⟩
  subst h2
  cases f with
  | none =>
    cases k with
    | none => subst hs; rfl
    | some _ => simp at h
  | some n =>
    cases k with
    | none => simp at h
    | some k => subst hs; rfl

theorem seen_scalar {t : Table} {x : Scalar Nat} {y : Scalar (Option Text)} (hx : ∀ t, x = .timestamp t → ∃ p, IsTimeValue t p)
    (h : x.map t.text = y.map .ok) :
    ∃ v, t.value x = .ok v ∧ denote (fun k => some k.text) x.ty v = some y := by
  cases x <;> cases y <;> simp only [Scalar.map, reduceCtorEq, Scalar.null.injEq, Scalar.bool.injEq, Scalar.int.injEq,
    Scalar.float.injEq, Scalar.decimal.injEq, Scalar.timestamp.injEq, Scalar.symbol.injEq, Scalar.string.injEq,
    Scalar.clob.injEq, Scalar.blob.injEq] at h
  case symbol n x =>
    obtain ⟨k, hk, rfl⟩ := find_of_text h
    exact ⟨some (.sym k), by simp [Table.value, hk, bind, Except.bind, pure, Except.pure], rfl⟩
  case timestamp a b =>
    subst h
    obtain ⟨p, hp⟩ := hx a rfl
    exact ⟨_, rfl, by simp [pyValue, Scalar.ty, denote, timeValue_normal hp]⟩
  all_goals subst h; exact ⟨_, rfl, rfl⟩

/-- The events of values describe these values. -/
theorem seen_values {s : Bool} {items : List (Node Nat)} (hf : Formed s items) : ∀ {t : Table} {texts : List (Node (Option Text))},
    items.map (Node.map t.text) = texts.map (Node.map .ok) → ∀ (d : Nat) (cur : List (Node (Option Text))) (opens : List (OpenNode (Option Text))),
    (Tree.mk cur opens).inStruct = s →
    ∃ ies, allSome seenEvent (eventsList t d items) = some ies ∧
      (Tree.mk cur opens).run seenText (fun k => some k.text) ies = some ⟨cur ++ texts, opens⟩ := by
  induction hf with
  | nil s =>
    intro t texts h d cur opens _
    cases texts with
    | nil => exact ⟨[], rfl, by simp [Tree.run]⟩
    | cons _ _ => simp at h
  | scalar s f a x ns hfs hx _ ih =>
    intro t texts h d cur opens hin
    cases texts with
    | nil => simp at h
    | cons y texts =>
      simp only [List.map_cons, List.cons.injEq] at h
      obtain ⟨h1, h2⟩ := h
      cases y with
      | cont => simp [Node.map] at h1
      | scalar f' a' y =>
        simp only [Node.map, Node.scalar.injEq] at h1
        obtain ⟨hfield, hann, hval⟩ := h1
        obtain ⟨k, hk1, hk2⟩ := seen_field hfs hfield
        obtain ⟨ks, hks1, hks2⟩ := findAll_of_text hann
        obtain ⟨v, hv1, hv2⟩ := seen_scalar hx hval
        obtain ⟨ies, i1, i2⟩ := ih h2 d (cur ++ [.scalar f' a' y]) opens (by simpa [Tree.inStruct] using hin)
        have e1 : allSome seenEvent [(Node.scalar f a x).seen t d] = some
            [{ eventType := .scalar, ionType := some x.ty, value := .ok v, fieldName := k.map .tok, annotations := ks.map .tok, depth := some (d : Int) }] := by
          simp only [allSome, Node.seen, seenEvent, hk1, hks1, hv1]
        have e3 := allSome_append e1 i1
        rw [show [(Node.scalar f a x).seen t d] ++ eventsList t d ns = eventsList t d (.scalar f a x :: ns) from by simp [eventsList, Node.events]] at e3
        refine ⟨_, e3, ?_⟩
        · simp only [List.cons_append, List.nil_append]
          simp only [Tree.run, Tree.step, hin, hk2, hks2, hv2, Option.map_some, Option.bind_some]
          rw [i2]
          simp
  | cont s f a ty items ns hfs _ _ ih1 ih2 =>
    intro t texts h d cur opens hin
    cases texts with
    | nil => simp at h
    | cons y texts =>
      simp only [List.map_cons, List.cons.injEq] at h
      obtain ⟨h1, h2⟩ := h
      cases y with
      | scalar => simp [Node.map] at h1
      | cont f' a' ty' items' =>
        simp only [Node.map, Node.cont.injEq, mapAll_eq] at h1
        obtain ⟨hfield, hann, rfl, hit⟩ := h1
        obtain ⟨k, hk1, hk2⟩ := seen_field hfs hfield
        obtain ⟨ks, hks1, hks2⟩ := findAll_of_text hann
        obtain ⟨ies1, i1, i2⟩ := ih1 hit (d + 1) [] (⟨f', a', ty, cur⟩ :: opens) (by simp [Tree.inStruct])
        obtain ⟨ies2, j1, j2⟩ := ih2 h2 d (cur ++ [.cont f' a' ty items']) opens (by simpa [Tree.inStruct] using hin)
        have e1 : allSome seenEvent [(Node.cont f a ty items).seen t d] = some
            [{ eventType := .containerStart, ionType := some ty.ty, value := .ok none, fieldName := k.map .tok, annotations := ks.map .tok, depth := some (d : Int) }] := by
          simp only [allSome, Node.seen, seenEvent, hk1, hks1]
        have e2 : allSome seenEvent [endSeen d ty] = some
            [{ eventType := .containerEnd, ionType := some ty.ty, value := .ok none, fieldName := none, annotations := [], depth := some (d : Int) }] := rfl
        have e3 := allSome_append e1 (allSome_append (allSome_append i1 e2) j1)
        rw [show [(Node.cont f a ty items).seen t d] ++ (eventsList t (d + 1) items ++ [endSeen d ty] ++ eventsList t d ns) =
          eventsList t d (.cont f a ty items :: ns) from by simp [eventsList, Node.events]] at e3
        refine ⟨_, e3, ?_⟩
        simp only [List.cons_append, List.nil_append, List.append_assoc]
        rw [Tree.run]
        simp only [Tree.step, hin, hk2, hks2, Option.bind_some, ctype_ty]
        rw [run_append, i2]
        simp only [Option.bind_some, List.nil_append]
        rw [Tree.run]
        simp only [Tree.step, Option.bind_some]
        rw [j2]
        simp

end Ion.Spec

namespace Ion.ManagedWriter
open Ion Ion.Spec Ion.SymbolTable Ion.SymbolTable.Spec
open Ion.RawReader (Chunks)

theorem find_eq (t : Table) (n : Nat) : t.text n = if n = 0 then .ok none else match t[n - 1]? with
    | some m => .ok m.1
    | none => .error .ionException := by
  unfold Table.text Table.find
  by_cases h : n = 0
  · simp [h, bind, Except.bind, pure, Except.pure]
  · simp only [h, if_false]
    cases t[n - 1]? with
    | none => rfl
    | some m => rfl

/-- The table of a segment: that of the imports, then the segment's own symbols. -/
theorem table_of_imports {imports : Option (List SymbolTable)} {T0 T : SymbolTable} {syms : List Text}
    (h0 : SymbolTable.new .local [] (imports := imports) = .ok T0)
    (h : SymbolTable.new .local (syms.map some) (imports := imports) = .ok T) :
    T.contents = T0.contents ++ syms.map (fun s => (some s, none)) := by
  obtain ⟨t, e, -, -, -, -, -, hc⟩ := new_local_spec (syms.map some) imports false
  obtain ⟨t', e', -, -, -, -, -, hc'⟩ := new_local_spec [] imports false
  rw [e] at h; cases h
  rw [e'] at h0; cases h0
  rw [hc, hc']
  simp

theorem text_extend {t0 more : Table} {n : Nat} (h : n ≤ t0.length) : Table.text (t0 ++ more) n = t0.text n := by
  rw [find_eq, find_eq]
  by_cases hn : n = 0
  · simp [hn]
  · rw [List.getElem?_append_left (by omega)]

theorem text_of_first {T : SymbolTable} {s : Text} {n : Nat}
    (h : (T.symbols.findIdx? (fun k => k.text = some s)).map (· + 1) = some n) : Table.text T.contents n = .ok (some s) := by
  simp only [Option.map_eq_some_iff] at h
  obtain ⟨i, hi, rfl⟩ := h
  rw [List.findIdx?_eq_some_iff_getElem] at hi
  obtain ⟨hlt, hp, -⟩ := hi
  rw [find_eq]
  simp only [Nat.add_eq_zero_iff, Nat.succ_ne_self, and_false, if_false, Nat.add_sub_cancel, contents, List.getElem?_map]
  rw [List.getElem?_eq_getElem hlt]
  simpa using hp

/-- The ID that the writer uses means the symbol that was given. -/
theorem argText_of_id {T0 T : SymbolTable} {more : Table} (hT : T.contents = T0.contents ++ more) (a : SymArg)
    (hg : GoodSym T0.symbols.length a) (n : Nat) (h : idIn T a = some n) :
    ∃ x, Table.text T.contents n = .ok x ∧ argText T0.contents a = some x := by
  cases a with
  | text s => exact ⟨some s, text_of_first h, rfl⟩
  | tok k =>
    obtain ⟨kt, ks, kl⟩ := k
    cases kt with
    | some s => exact ⟨some s, text_of_first h, rfl⟩
    | none =>
      cases ks with
      | none => simp [idIn] at h
      | some m =>
        simp only [idIn, Option.ite_none_right_eq_some, Option.some.injEq] at h
        obtain ⟨hle, rfl⟩ := h
        have hm : m ≤ T0.contents.length := by simpa [contents, GoodSym] using hg
        have he : Table.text T.contents m = Table.text T0.contents m := by rw [hT, text_extend hm]
        have hx : ∃ x, Table.text T0.contents m = .ok x := by
          rw [find_eq]
          by_cases h0 : m = 0
          · exact ⟨none, by simp [h0]⟩
          · rw [List.getElem?_eq_getElem (by omega), if_neg h0]
            exact ⟨_, rfl⟩
        obtain ⟨x, hx⟩ := hx
        exact ⟨x, by rw [he, hx], by simp [argText, hx]⟩

theorem asToken_syms {limit : Nat} {e : IonEvent} (h : SymbolsOK limit e) :
    (∀ a, InEvent a (asToken e) → GoodSym limit a) ∧
    ∀ k, (asToken e).ionType = some .symbol → (asToken e).value = .ok (some (.sym k)) → GoodSym limit (.tok k) := by
  obtain ⟨h1, h2, h3⟩ := h
  unfold asToken
  by_cases ht : e.ionType = some .symbol
  · rw [if_pos ht]
    rcases h3 ht with hv | ⟨v, a, hv, ha, hg⟩
    · rw [hv]
      refine ⟨fun a ha => ha.elim (fun h => (h1 a h).2) (h2 a), fun k _ hk => ?_⟩
      simp only at hk
      rw [hv] at hk; cases hk
    · rw [hv]
      cases v <;> simp only [symbolOfValue, reduceCtorEq, Option.some.injEq] at ha
      all_goals subst ha
      all_goals refine ⟨fun a ha => ha.elim (fun h => (h1 a h).2) (h2 a), fun k _ hk => ?_⟩
      all_goals simp only at hk
      · rw [hv] at hk; cases hk
        exact hg
      · cases hk
        exact hg
  · rw [if_neg ht]
    exact ⟨fun a ha => ha.elim (fun h => (h1 a h).2) (h2 a), fun k hk => absurd hk ht⟩

/-- The values of a segment, symbols replaced by their texts. -/
theorem forest_texts {T0 T : SymbolTable} {more : Table} (hT : T.contents = T0.contents ++ more) (evs : List IonEvent)
    (hm : ∀ e ∈ evs, SymbolsOK T0.symbols.length e) (forest : List (Spec.Node Nat)) (texts : List (Spec.Node (Option Text)))
    (hf : valuesOf (idIn T) (idInTok T) (evs.map asToken) = some forest) (ht : valuesGiven T0.contents evs = some texts) :
    forest.map (Node.map (Table.text T.contents)) = texts.map (Node.map .ok) := by
  have hsym : ∀ e ∈ evs.map asToken, (∀ a, InEvent a e → GoodSym T0.symbols.length a) ∧
      ∀ k, e.ionType = some .symbol → e.value = .ok (some (.sym k)) → GoodSym T0.symbols.length (.tok k) := by
    intro e he
    obtain ⟨e', he', rfl⟩ := List.mem_map.1 he
    exact asToken_syms (hm e' he')
  have h1 := valuesOf_map (f := Table.text T.contents) (sym' := fun a => (argText T0.contents a).map .ok)
    (symTok' := fun k => (argText T0.contents (.tok k)).map .ok) (evs.map asToken)
    (fun e he a ha n hn => by
      obtain ⟨x, hx, hx'⟩ := argText_of_id hT a ((hsym e he).1 a ha) n hn
      simp [hx, hx'])
    (fun e he k h1 h2 n hn => by
      obtain ⟨x, hx, hx'⟩ := argText_of_id hT (.tok k) ((hsym e he).2 k h1 h2) n hn
      simp [hx, hx']) forest hf
  have h2 := valuesOf_map (f := (Except.ok : Option Text → Except PyErr (Option Text))) (sym' := fun a => (argText T0.contents a).map .ok)
    (symTok' := fun k => (argText T0.contents (.tok k)).map .ok) (evs.map asToken)
    (fun e he a ha n hn => by simp [hn]) (fun e he k h1 h2 n hn => by simp [hn]) texts ht
  rw [h1] at h2
  exact Option.some.inj h2

/-- Values that have texts are complete. -/
theorem given_balanced {t0 : Table} {evs : List IonEvent} {texts : List (Spec.Node (Option Text))}
    (h : valuesGiven t0 evs = some texts) : Balanced evs := by
  have := valuesOf_map (f := fun _ => ()) (sym' := fun _ => some ()) (symTok' := fun _ => some ()) (evs.map asToken)
    (fun _ _ _ _ _ _ => rfl) (fun _ _ _ _ _ _ _ => rfl) texts h
  unfold Balanced
  rw [this]
  simp

theorem user_value {c : Catalog} {t : Table} {n : Spec.Node Nat} {m : Spec.Node (Option Text)}
    (h : n.map t.text = m.map .ok) (hs : ¬ SystemLike m) : systemValue c t n = .ok none ∧
    ∀ f b as fields, n = .cont f (b :: as) .struct fields → t.text b ≠ .ok (some TEXT_ION_SYMBOL_TABLE) := by
  cases n with
  | scalar f a x =>
    refine ⟨?_, by simp⟩
    cases m with
    | cont => simp [Node.map] at h
    | scalar f' a' x' =>
      simp only [Node.map, Node.scalar.injEq] at h
      obtain ⟨-, ha, hx⟩ := h
      cases a with
      | cons => cases x <;> rfl
      | nil =>
        cases a' with
        | cons => simp at ha
        | nil =>
          cases x <;> first | rfl | skip
          rename_i s
          cases x' <;> simp [Scalar.map] at hx
          rename_i s'
          simp only [systemValue, hx, bind, Except.bind, pure, Except.pure]
          cases s' with
          | none => simp
          | some s' => simp only [SystemLike] at hs; simp [hs]
  | cont f a ty items =>
    cases m with
    | scalar => simp [Node.map] at h
    | cont f' a' ty' items' =>
      simp only [Node.map, Node.cont.injEq] at h
      obtain ⟨-, ha, rfl, -⟩ := h
      cases a with
      | nil => exact ⟨by cases ty <;> rfl, by simp⟩
      | cons b as =>
        cases a' with
        | nil => simp at ha
        | cons b' as' =>
          simp only [List.map_cons, List.cons.injEq] at ha
          cases ty with
          | list => exact ⟨rfl, by simp⟩
          | sexp => exact ⟨rfl, by simp⟩
          | struct =>
            have hb : b' ≠ some TEXT_ION_SYMBOL_TABLE := by
              intro hb; subst hb; exact hs rfl
            refine ⟨by simp [systemValue, ha.1, bind, Except.bind, pure, Except.pure, hb], ?_⟩
            intro f2 b2 as2 fields2 he
            simp only [Node.cont.injEq, List.cons.injEq] at he
            rw [← he.2.1.1, ha.1]
            simpa using hb

/-- The imports of the writer are in the reader's catalog. -/
structure Available (history : List SymbolTable) (t : SymbolTable) : Prop where
  here : ∃ n v, t.name = some n ∧ t.version = some v ∧ Catalog.Spec.held history n v = some t
  name : ∀ n, t.name = some n → EncodableText n

theorem held_mem {history : List SymbolTable} {n : Text} {v : Int} {t : SymbolTable}
    (h : Catalog.Spec.held history n v = some t) : t ∈ history := by
  induction history with
  | nil => simp [Catalog.Spec.held] at h
  | cons a as ih =>
    simp only [Catalog.Spec.held] at h
    cases hh : Catalog.Spec.held as n v with
    | some t' => rw [hh] at h; cases h; simp [ih hh]
    | none =>
      rw [hh] at h
      simp only at h
      split at h
      · cases h; simp
      · cases h

theorem shared_version {t : SymbolTable} (h : Catalog.Spec.Shared t) : t.tableType = .shared ∧ ∃ v, t.version = some v ∧ 0 < v := by
  obtain ⟨nm, version, symbols, imports, h⟩ := h
  have hv : 0 < version := by
    apply Classical.byContradiction; intro hc
    have : version ≤ 0 := by omega
    simp [sharedSymbolTable, new, TableType.isSystem, TableType.isShared, this] at h
  obtain ⟨s, hs, hw, h1, h2, h3, h4, h5, -⟩ := new_shared_spec symbols nm version hv imports false
  rw [sharedSymbolTable, hs] at h; cases h
  exact ⟨h1, version, h3, hv⟩

theorem available_good {history : List SymbolTable} (hs : ∀ t ∈ history, Catalog.Spec.Shared t) {t : SymbolTable}
    (h : Available history t) : GoodImport t := by
  obtain ⟨n, v, -, -, h3⟩ := h.here
  have hsh := hs t (held_mem h3)
  refine ⟨?_, (shared_version hsh).1, fun n hn => h.name n hn⟩
  obtain ⟨nm, version, symbols, imports, h⟩ := hsh
  exact .new h

theorem import_resolves {history : List SymbolTable} (hs : ∀ t ∈ history, Catalog.Spec.Shared t) {catalog : Catalog}
    (hc : Catalog.Spec.registerAll history = .ok catalog) {t : SymbolTable} (h : Available history t) :
    ∃ n v, t.name = some n ∧ t.version = some v ∧ catalog.resolve n (some v) (some t.maxId) = .ok t := by
  obtain ⟨n, v, h1, h2, h3⟩ := h.here
  obtain ⟨-, v', hv', hpos⟩ := shared_version (hs t (held_mem h3))
  rw [h2] at hv'; cases hv'
  obtain ⟨c, e, hex, -⟩ := Catalog.C19_resolve history hs n v hpos
  rw [hc] at e; cases e
  exact ⟨n, v, h1, h2, (hex t h3).2.1⟩

theorem sys_texts : systemTable.text 3 = .ok (some TEXT_ION_SYMBOL_TABLE) ∧ systemTable.text 4 = .ok (some TEXT_NAME) ∧
    systemTable.text 5 = .ok (some TEXT_VERSION) ∧ systemTable.text 6 = .ok (some TEXT_IMPORTS) ∧
    systemTable.text 7 = .ok (some TEXT_SYMBOLS) ∧ systemTable.text 8 = .ok (some TEXT_MAX_ID) := by decide +kernel

theorem import_fields {t : SymbolTable} {n : Text} {v : Int} (hn : t.name = some n) (hv : t.version = some v) :
    Import.fields systemTable {} [.scalar (some 4) [] (.string (t.name.getD [])), .scalar (some 5) [] (.int (t.version.getD 0)),
    .scalar (some 8) [] (.int t.maxId)] = .ok ⟨some n, some v, some t.maxId⟩ := by
  obtain ⟨-, e4, e5, -, -, e8⟩ := sys_texts
  have d1 : TEXT_VERSION ≠ TEXT_NAME := by decide
  have d2 : TEXT_MAX_ID ≠ TEXT_NAME := by decide
  have d3 : TEXT_MAX_ID ≠ TEXT_VERSION := by decide
  simp [Import.fields, Import.field, e4, e5, e8, bind, Except.bind, pure, Except.pure, d1, d2, d3, hn, hv]

theorem import_all {history : List SymbolTable} (hs : ∀ t ∈ history, Catalog.Spec.Shared t) {catalog : Catalog}
    (hc : Catalog.Spec.registerAll history = .ok catalog) (imports : List SymbolTable) (h : ∀ t ∈ imports, Available history t) :
    importAll catalog systemTable (imports.map importNode) = .ok (imports.flatMap contents) := by
  induction imports with
  | nil => rfl
  | cons t ts ih =>
    obtain ⟨n, v, hn, hv, hr⟩ := import_resolves hs hc (h t (by simp))
    simp only [List.map_cons, importNode, importAll, import_fields hn hv, bind, Except.bind, pure, Except.pure, Import.table, hr,
      List.flatMap_cons]
    rw [ih (fun t' h' => h t' (by simp [h']))]
    rfl

/-- The reader gets from the symbol table what the writer meant by it. -/
theorem lst_read {history : List SymbolTable} (hs : ∀ t ∈ history, Catalog.Spec.Shared t) {catalog : Catalog}
    (hc : Catalog.Spec.registerAll history = .ok catalog) (imports : List SymbolTable) (h : ∀ t ∈ imports, Available history t)
    (hl : Bool) (syms : List Text) (hsy : hl = false → syms = []) :
    systemValue catalog systemTable (lstNode imports hl syms) =
      .ok (some (systemTable ++ imports.flatMap contents ++ syms.map fun s => (some s, none))) := by
  obtain ⟨e3, -, -, e6, e7, -⟩ := sys_texts
  have hall := import_all hs hc imports h
  have d1 : TEXT_IMPORTS ≠ TEXT_SYMBOLS := by decide
  have hdecl : (syms.map fun t => (Spec.Node.scalar none [] (.string t) : Spec.Node Nat)).map declared = syms.map some := by
    simp [declared, Function.comp_def]
  by_cases hi : imports = []
  · cases hl with
    | false =>
      have := hsy rfl
      subst this; subst hi
      simp [lstNode, systemValue, e3, bind, Except.bind, pure, Except.pure, localTable, Draft.fields, Draft.table]
    | true =>
      subst hi
      simp [lstNode, systemValue, e3, e7, bind, Except.bind, pure, Except.pure, localTable, Draft.fields, Draft.table,
        Draft.field, Draft.named, Table.fieldText, Node.field, declared, Function.comp_def]
  · cases hl with
    | false =>
      have := hsy rfl
      subst this
      simp [lstNode, hi, systemValue, e3, e6, bind, Except.bind, pure, Except.pure, localTable, Draft.fields, Draft.table,
        Draft.field, Draft.named, Table.fieldText, Node.field, d1, hall]
    | true =>
      simp [lstNode, hi, systemValue, e3, e6, e7, bind, Except.bind, pure, Except.pure, localTable, Draft.fields, Draft.table,
        Draft.field, Draft.named, Table.fieldText, Node.field, d1, hall, declared, Function.comp_def]

theorem lst_plain (imports : List SymbolTable) (hl : Bool) (syms : List Text) (f : Option Nat) (b : Nat) (as : List Nat) (fields : List (Spec.Node Nat))
    (he : lstNode imports hl syms = .cont f (b :: as) .struct fields) : ∀ m ∈ fields, PlainField systemTable m := by
  obtain ⟨e3, -, -, e6, e7, -⟩ := sys_texts
  unfold lstNode at he
  simp only [Spec.Node.cont.injEq] at he
  obtain ⟨-, -, -, rfl⟩ := he
  intro m hm
  rcases List.mem_append.1 hm with hm | hm
  · split at hm
    · simp at hm
    · simp only [List.mem_singleton] at hm
      subst hm
      intro h6; rw [e6] at h6; cases h6
  · split at hm
    · simp only [List.mem_singleton] at hm
      subst hm
      intro _ n hn
      obtain ⟨t, -, rfl⟩ := List.mem_map.1 hn
      exact ⟨_, _, _, rfl, rfl⟩
    · simp at hm

theorem scalar_values (evs : List IonEvent) (hm : ∀ e ∈ evs, RegularEvent e ∧ ReadableEvent e) (T : SymbolTable)
    (forest : List (Spec.Node Nat)) (hf : valuesOf (idIn T) (idInTok T) (evs.map asToken) = some forest) :
    Spec.AllScalars RawReader.Readable forest := by
  refine valuesOf_all (evs.map asToken) ?_ forest hf
  intro e he het ty v x hty hv hd
  obtain ⟨e', he', rfl⟩ := List.mem_map.1 he
  obtain ⟨h1, h2⟩ := hm e' he'
  cases v with
  | none => cases hd; trivial
  | some v =>
    have hsame : ty ≠ .symbol → asToken e' = e' := by
      intro hne
      unfold asToken
      rw [if_neg]
      intro hc
      have : (asToken e').ionType = some .symbol := by
        unfold asToken; rw [if_pos hc]; split <;> exact hc
      rw [hty] at this
      exact hne (Option.some.inj this)
    cases ty <;> cases v <;> simp only [denote, reduceCtorEq, Option.some.injEq] at hd <;> try (subst hd; trivial)
    · rw [hsame (by simp)] at hv het
      subst hd
      exact h2 het _ hv
    · rw [hsame (by simp)] at hv het
      subst hd
      exact frac_timeValue (h1 het _ hv)
    · cases hk : idInTok T _ with
      | none => rw [hk] at hd; cases hd
      | some n => rw [hk] at hd; cases hd; trivial

end Ion.ManagedWriter

namespace Ion.ManagedWriter
open Ion Ion.Spec Ion.SymbolTable Ion.SymbolTable.Spec
open Ion.ManagedReader (Event)
open Ion.RawReader (Chunks)

theorem userValues_users {c : Catalog} {t : Table} (forest : List (Spec.Node Nat)) (hf : ∀ n ∈ forest, systemValue c t n = .ok none)
    (rest : List Top) (vs : List (Table × Spec.Node Nat)) (hr : userValues c t rest = .ok vs) :
    userValues c t (forest.map .value ++ rest) = .ok (forest.map (t, ·) ++ vs) := by
  induction forest with
  | nil => exact hr
  | cons n ns ih =>
    simp only [List.map_cons, List.cons_append, userValues, hf n (by simp), bind, Except.bind, pure, Except.pure]
    rw [ih (fun m hm => hf m (by simp [hm]))]

theorem plain_users {c : Catalog} {t : Table} (forest : List (Spec.Node Nat)) (hf : ∀ n ∈ forest, systemValue c t n = .ok none ∧
      ∀ f b as fields, n = .cont f (b :: as) .struct fields → t.text b ≠ .ok (some TEXT_ION_SYMBOL_TABLE))
    (rest : List Top) (hr : Plain c t rest) : Plain c t (forest.map .value ++ rest) := by
  induction forest with
  | nil => exact hr
  | cons n ns ih =>
    obtain ⟨h1, h2⟩ := hf n (by simp)
    simp only [List.map_cons, List.cons_append, Plain]
    refine ⟨fun f b as fields he ht => absurd ht (h2 f b as fields he), ?_⟩
    intro t' ht'
    rcases ht' with ht' | ⟨-, rfl⟩
    · rw [h1] at ht'; cases ht'
    · exact ih (fun m hm => hf m (by simp [hm]))

/-- What the reader makes of one segment. -/
theorem segment_read {history : List SymbolTable} (hs : ∀ t ∈ history, Catalog.Spec.Shared t) {c : Catalog}
    (hc : Catalog.Spec.registerAll history = .ok c) {imports : Option (List SymbolTable)}
    (hi : ∀ t ∈ imports.getD [], Available history t) {T0 : SymbolTable}
    (h0 : SymbolTable.new .local [] (imports := imports) = .ok T0) {evs : List IonEvent} {items : List (Spec.Node Nat)}
    (he : Encodes imports evs items) (hform : Formed false items)
    (hm : ∀ e ∈ evs, SymbolsOK T0.symbols.length e ∧ RegularEvent e ∧ ReadableEvent e) {texts : List (Spec.Node (Option Text))}
    (ht : valuesGiven T0.contents evs = some texts) (hu : ∀ n ∈ texts, ¬ SystemLike n) :
    ∃ t forest, forest.map (Node.map (Table.text t)) = texts.map (Node.map .ok) ∧ Formed false forest ∧
      Spec.AllScalars RawReader.Readable items ∧
      ∀ rest vs, (∀ t, userValues c t rest = .ok vs ∧ Plain c t rest) →
        userValues c systemTable (items.map .value ++ rest) = .ok (forest.map (t, ·) ++ vs) ∧
        Plain c systemTable (items.map .value ++ rest) := by
  obtain ⟨syms, T, hl, forest, hT, -, -, hsy, hf, hit⟩ := he
  have hcont := table_of_imports h0 hT
  have htexts := forest_texts hcont evs (fun e he => (hm e he).1) forest texts hf ht
  have hall := scalar_values evs (fun e he => (hm e he).2) T forest hf
  have husers : ∀ n ∈ forest, systemValue c T.contents n = .ok none ∧
      ∀ f b as fields, n = .cont f (b :: as) .struct fields → Table.text T.contents b ≠ .ok (some TEXT_ION_SYMBOL_TABLE) := by
    intro n hn
    obtain ⟨i, hlt, rfl⟩ := List.getElem_of_mem hn
    have hlen : forest.length = texts.length := by simpa using congrArg List.length htexts
    have := congrArg (fun l => l[i]?) htexts
    simp only [List.getElem?_map, List.getElem?_eq_getElem hlt, List.getElem?_eq_getElem (hlen ▸ hlt), Option.map_some,
      Option.some.injEq] at this
    exact user_value this (hu _ (List.getElem_mem _))
  have hbase : T.contents = systemTable ++ (imports.getD []).flatMap contents ++ syms.map fun s => (some s, none) := by
    obtain ⟨t, e, -, -, -, -, -, hc⟩ := new_local_spec (syms.map some) imports false
    rw [e] at hT; cases hT
    rw [hc]
    have h1 : SYSTEM_SYMBOL_TOKENS.map (fun k => (k.text, k.location)) = systemTable := by decide +kernel
    have h2 : ((imports.getD []).flatMap fun table => (table.symbols.filter fun k => importable table k).map fun k => (k.text, k.location)) =
        (imports.getD []).flatMap contents := by
      apply List.flatMap_congr
      intro t ht
      have := (available_good hs (hi t ht)).shared
      have : t.symbols.filter (fun k => importable t k) = t.symbols := by
        rw [List.filter_eq_self]
        intro k _
        simp [importable, this, TableType.isLocal]
      rw [this]; rfl
    rw [h1, h2]
    simp
  refine ⟨T.contents, forest, htexts, ?_, ?_, ?_⟩
  · subst hit; exact hform.suffix _
  · subst hit
    refine AllScalars.append ?_ hall
    split
    · have himp : ∀ ts : List SymbolTable, Spec.AllScalars RawReader.Readable (ts.map importNode) := by
        intro ts
        induction ts with
        | nil => exact .nil
        | cons t ts ih =>
          exact .cont _ _ _ _ _ (.scalar _ _ _ _ trivial (.scalar _ _ _ _ trivial (.scalar _ _ _ _ trivial .nil))) ih
      have hstr : ∀ ts : List Text, Spec.AllScalars RawReader.Readable (ts.map fun t => .scalar none [] (.string t)) := by
        intro ts
        induction ts with
        | nil => exact .nil
        | cons t ts ih => exact .scalar _ _ _ _ trivial ih
      refine .cont _ _ _ _ _ (AllScalars.append ?_ ?_) .nil
      · split
        · exact .nil
        · exact .cont _ _ _ _ _ (himp _) .nil
      · split
        · exact .cont _ _ _ _ _ (hstr _) .nil
        · exact .nil
    · exact .nil
  · intro rest vs hrest
    have k1 := userValues_users forest (fun n hn => (husers n hn).1) rest vs (hrest T.contents).1
    have k2 := plain_users forest husers rest (hrest T.contents).2
    subst hit
    by_cases hcond : hl = true ∨ imports.getD [] ≠ []
    · rw [if_pos hcond]
      have hlr := lst_read hs hc (imports.getD []) hi hl syms hsy
      rw [← hbase] at hlr
      simp only [List.singleton_append, List.map_cons, List.cons_append, userValues, Plain, hlr, bind, Except.bind]
      refine ⟨k1, fun f b as fields he _ => lst_plain _ hl syms f b as fields he, ?_⟩
      intro t' ht'
      rcases ht' with ht' | ⟨ht', -⟩
      · cases ht'; exact k2
      · cases ht'
    · rw [if_neg hcond]
      have h1 : imports.getD [] = [] := by
        by_cases hh : imports.getD [] = []
        · exact hh
        · exact absurd (.inr hh) hcond
      have h2 : syms = [] := hsy (by cases hl <;> simp_all)
      have hsys : T.contents = systemTable := by rw [hbase, h1, h2]; simp
      rw [hsys] at k1 k2
      rw [hsys]
      exact ⟨k1, k2⟩

theorem stream_formed {doc : Bytes} {segs : List (List (Spec.Node Nat))} (h : IsStream doc segs) : ∀ items ∈ segs, Formed false items := by
  induction h with
  | nil => simp
  | segment body rest items segs hi _ ih =>
    intro x hx
    rcases List.mem_cons.1 hx with rfl | hx
    · exact formed_items hi
    · exact ih x hx

/-- The conditions on the events of a batch under which its values come back. -/
structure Returns (t0 : Table) (limit : Nat) (evs : List IonEvent) : Prop where
  /-- they describe complete values, none of which looks like a system value -/
  values : ∃ texts, valuesGiven t0 evs = some texts ∧ ∀ n ∈ texts, ¬ SystemLike n
  symbols : ∀ e ∈ evs, SymbolsOK limit e
  /-- C05, C06, C08: what the encoding can express -/
  scalars : ∀ e ∈ evs, RegularEvent e ∧ EncodableEvent e ∧ ReadableEvent e

/-- The open containers after older values at the top level. -/
def addOpens {σ : Type} (pre : List (Spec.Node σ)) : List (OpenNode σ) → List (OpenNode σ)
  | [] => []
  | o :: [] => [{ o with before := pre ++ o.before }]
  | o :: os => o :: addOpens pre os

/-- A document after older values. -/
def under {σ : Type} (pre : List (Spec.Node σ)) (t : Tree σ) : Tree σ :=
  ⟨if t.opens = [] then pre ++ t.cur else t.cur, addOpens pre t.opens⟩

theorem step_under {σ : Type} {sym : SymArg → Option σ} {symTok : SymbolToken → Option σ} (pre : List (Spec.Node σ)) (e : IonEvent)
    {t t1 : Tree σ} (h : t.step sym symTok e = some t1) : (under pre t).step sym symTok e = some (under pre t1) := by
  obtain ⟨cur, opens⟩ := t
  have hin : (under pre ⟨cur, opens⟩).inStruct = (Tree.mk cur opens).inStruct := by
    cases opens with
    | nil => rfl
    | cons o os => cases os <;> rfl
  unfold Tree.step at h ⊢
  rw [hin]
  cases het : e.eventType with
  | scalar =>
    simp only [het] at h ⊢
    split at h
    · rename_i f a ty v h1 h2 h3 h4
      simp only [Option.map_eq_some_iff] at h ⊢
      obtain ⟨x, hx, rfl⟩ := h
      refine ⟨x, hx, ?_⟩
      cases opens with
      | nil => simp [under, addOpens]
      | cons o os => simp [under]
    · cases h
  | containerStart =>
    simp only [het] at h ⊢
    split at h
    · rename_i f a ty h1 h2 h3
      cases h
      cases opens with
      | nil => simp [under, addOpens]
      | cons o os => simp [under, addOpens]
    · cases h
  | containerEnd =>
    simp only [het] at h ⊢
    cases opens with
    | nil => cases h
    | cons o os =>
      cases h
      cases os with
      | nil => simp [under, addOpens]
      | cons o' os' => simp [under, addOpens]
  | incomplete => rw [het] at h; cases h
  | streamEnd => rw [het] at h; cases h
  | versionMarker => rw [het] at h; cases h

theorem run_under {σ : Type} {sym : SymArg → Option σ} {symTok : SymbolToken → Option σ} (pre : List (Spec.Node σ)) (es : List IonEvent) :
    ∀ {t t1 : Tree σ}, t.run sym symTok es = some t1 → (under pre t).run sym symTok es = some (under pre t1) := by
  induction es with
  | nil => intro t t1 h; cases h; rfl
  | cons e es ih =>
    intro t t1 h
    simp only [Tree.run, Option.bind_eq_some_iff] at h ⊢
    obtain ⟨t', h1, h2⟩ := h
    exact ⟨_, step_under pre e h1, ih h2⟩

theorem given_iff {t0 : Table} {a : List IonEvent} {xs : List (Spec.Node (Option Text))} :
    valuesGiven t0 a = some xs ↔
      Tree.empty.run (argText t0) (fun k => argText t0 (.tok k)) (a.map asToken) = some ⟨xs, []⟩ := by
  unfold valuesGiven valuesOf
  cases Tree.empty.run (argText t0) (fun k => argText t0 (.tok k)) (a.map asToken) with
  | none => simp
  | some t =>
    obtain ⟨cur, opens⟩ := t
    cases opens with
    | nil => simp
    | cons o os => simp

theorem given_append {t0 : Table} {a b : List IonEvent} {xs ys : List (Spec.Node (Option Text))}
    (ha : valuesGiven t0 a = some xs) (hb : valuesGiven t0 b = some ys) : valuesGiven t0 (a ++ b) = some (xs ++ ys) := by
  rw [given_iff] at ha hb ⊢
  rw [List.map_append, Spec.run_append, ha]
  have := run_under xs _ hb
  simpa [under, addOpens, Tree.empty] using this

/-- What the reader makes of the segments. -/
theorem segments_read {history : List SymbolTable} (hs : ∀ t ∈ history, Catalog.Spec.Shared t) {c : Catalog}
    (hc : Catalog.Spec.registerAll history = .ok c) {imports : Option (List SymbolTable)}
    (hi : ∀ t ∈ imports.getD [], Available history t) {T0 : SymbolTable}
    (h0 : SymbolTable.new .local [] (imports := imports) = .ok T0) {bs : List Batch} {segs : List (List (Spec.Node Nat))}
    (h : List.Forall₂ (fun b items => (b.values = [] ∧ items = []) ∨ Encodes imports b.values items) bs segs)
    (hform : ∀ items ∈ segs, Formed false items) (hr : ∀ b ∈ bs, Returns T0.contents T0.symbols.length b.values) :
    ∃ vs texts, valuesGiven T0.contents (bs.flatMap (·.values)) = some texts ∧
      (∀ items ∈ segs, Spec.AllScalars RawReader.Readable items) ∧
      (∀ t, userValues c t (tops segs) = .ok vs ∧ Plain c t (tops segs)) ∧
      List.Forall₂ (fun v m => v.2.map v.1.text = m.map .ok) vs texts ∧
      ∀ cur, ∃ ies, allSome seenEvent (vs.flatMap fun v => v.2.events v.1 0) = some ies ∧
        (Tree.mk cur []).run seenText (fun k => some k.text) ies = some ⟨cur ++ texts, []⟩ := by
  induction h with
  | nil => exact ⟨[], [], rfl, by simp, fun t => ⟨rfl, trivial⟩, .nil, fun cur => ⟨[], rfl, by simp [Tree.run]⟩⟩
  | @cons b items bs segs h1 _ ih =>
    obtain ⟨vs, texts, i1, i2, i3, ifa, i4⟩ := ih (fun x hx => hform x (by simp [hx])) (fun x hx => hr x (by simp [hx]))
    have hone : ∃ t forest ts, valuesGiven T0.contents b.values = some ts ∧
        forest.map (Node.map (Table.text t)) = ts.map (Node.map .ok) ∧ Formed false forest ∧
        Spec.AllScalars RawReader.Readable items ∧
        ∀ rest vs, (∀ t, userValues c t rest = .ok vs ∧ Plain c t rest) →
          userValues c systemTable (items.map .value ++ rest) = .ok (forest.map (t, ·) ++ vs) ∧
          Plain c systemTable (items.map .value ++ rest) := by
      rcases h1 with ⟨h1, h2⟩ | h1
      · subst h2
        rw [h1]
        exact ⟨systemTable, [], [], rfl, rfl, .nil _, .nil, fun rest vs h => h systemTable⟩
      · obtain ⟨⟨ts, ht, hu⟩, k2, k3⟩ := hr b (by simp)
        obtain ⟨t, forest, j⟩ := segment_read hs hc hi h0 h1 (hform items (by simp))
          (fun e he => ⟨k2 e he, (k3 e he).1, (k3 e he).2.2⟩) ht hu
        exact ⟨t, forest, ts, ht, j⟩
    obtain ⟨t, forest, ts, j1, j2, j3, j4, j5⟩ := hone
    refine ⟨forest.map (t, ·) ++ vs, ts ++ texts, ?_, ?_, ?_, ?_, ?_⟩
    · rw [List.flatMap_cons]; exact given_append j1 i1
    · intro x hx
      rcases List.mem_cons.1 hx with rfl | hx
      · exact j4
      · exact i2 x hx
    · intro t'
      have := j5 (tops segs) vs i3
      simpa [tops, userValues, Plain] using this
    · clear j3 j4 j5 j1
      induction forest generalizing ts with
      | nil => cases ts with
        | nil => exact ifa
        | cons _ _ => simp at j2
      | cons n forest ihf => cases ts with
        | nil => simp at j2
        | cons m ts =>
          simp only [List.map_cons, List.cons.injEq] at j2
          exact .cons j2.1 (ihf ts j2.2)
    · intro cur
      obtain ⟨ies1, l1, l2⟩ := seen_values j3 j2 0 cur [] rfl
      obtain ⟨ies2, m1, m2⟩ := i4 (cur ++ ts)
      have hev : (forest.map (t, ·)).flatMap (fun v => v.2.events v.1 0) = eventsList t 0 forest := by
        clear j2 j3 j4 j5 l1 l2
        induction forest with
        | nil => rfl
        | cons n ns ihf => simp [eventsList, ← ihf]
      refine ⟨ies1 ++ ies2, ?_, ?_⟩
      · rw [List.flatMap_append, hev]
        exact allSome_append l1 m1
      · rw [Spec.run_append, l2]
        simpa using m2

/-- **C15** (and C12 at the level of events).  A binary writer is given any number of batches of complete values, of any
depth, with any symbols, with or without shared tables to import, with flushes and version markers in between.  If the
output, cut into chunks in any way, is read with a reader whose catalog holds the imported tables, `NEXT` gives events
that describe exactly the values that were given, in order, symbols by their texts, and then the end of the stream. -/
theorem C15_binary_round_trip (imports : Option (List SymbolTable)) (history : List SymbolTable)
    (hs : ∀ t ∈ history, Catalog.Spec.Shared t) (catalog : Catalog) (hc : Catalog.Spec.registerAll history = .ok catalog)
    (hi : ∀ t ∈ imports.getD [], Available history t) (T0 : SymbolTable)
    (h0 : SymbolTable.new .local [] (imports := imports) = .ok T0) (batches : List Batch)
    (hr : ∀ b ∈ batches, Returns T0.contents T0.symbols.length b.values) :
    ∃ chunks, runEvents (step imports) init (batches.flatMap Batch.events) = (chunks, .ok init) ∧
      ∀ cs, Chunks cs chunks.flatten → ∃ es : List Event,
        ManagedReader.pulls RawReader.send (ManagedReader.init catalog) cs (List.replicate (es.length + 1) .next) =
          some ((es ++ [streamEndSeen]).map .ok) ∧
        valuesSeen es = valuesGiven T0.contents (batches.flatMap (·.values)) ∧ valuesSeen es ≠ none := by
  have hg : ∀ t ∈ imports.getD [], GoodImport t := fun t ht => available_good hs (hi t ht)
  obtain ⟨chunks, segs, h1, h2, h3⟩ := C14_binary_writer_stream imports hg T0 h0 batches (fun b hb => by
    obtain ⟨⟨texts, ht, -⟩, k2, k3⟩ := hr b hb
    exact ⟨given_balanced ht, fun e he => ⟨k2 e he, (k3 e he).1, (k3 e he).2.1⟩⟩)
  obtain ⟨vs, texts, i1, i2, i3, -, i4⟩ := segments_read hs hc hi h0 h3 (stream_formed h2)
    (fun b hb => hr b (List.mem_of_mem_filter hb))
  refine ⟨chunks, h1, fun cs hcs => ⟨_, ManagedReader.C20_all_user_values_of_plain_documents chunks.flatten segs h2 i2 cs hcs catalog
    ⟨history, hs, hc⟩ (i3 systemTable).2 vs (i3 systemTable).1, ?_⟩⟩
  have hfilter : (batches.filter fun b => !b.isEmpty).flatMap (·.values) = batches.flatMap (·.values) := by
    clear h1 h3 i1 i4 hr
    induction batches with
    | nil => rfl
    | cons b bs ih =>
      rw [List.filter_cons]
      by_cases hb : b.isEmpty = true
      · have : b.values = [] := by simp [Batch.isEmpty] at hb; exact hb.2
        simp [hb, ih, this]
      · simp [hb, ih]
  rw [hfilter] at i1
  obtain ⟨ies, l1, l2⟩ := i4 []
  have : valuesSeen (vs.flatMap fun v => v.2.events v.1 0) = some texts := by
    unfold valuesSeen
    rw [l1]
    simp only [Option.bind_some, valuesOf]
    rw [show (Tree.empty : Tree (Option Text)) = ⟨[], []⟩ from rfl, l2]
    rfl
  rw [this, i1]
  simp

end Ion.ManagedWriter

namespace Ion.ManagedWriter
open Ion Ion.Spec Ion.SymbolTable Ion.SymbolTable.Spec
open Ion.ManagedReader (Event)
open Ion.RawReader (Chunks)

/-- **C15, C14** (imported IDs).  A text that the system symbols or the imported tables define is written with the ID that
it has there, whatever local symbols the segment declares (`T` is the table of a segment, see `Encodes`). -/
theorem C15_imported_ids (imports : Option (List SymbolTable)) (T0 T : SymbolTable) (syms : List Text)
    (h0 : SymbolTable.new .local [] (imports := imports) = .ok T0)
    (h : SymbolTable.new .local (syms.map some) (imports := imports) = .ok T) (text : Text) (n : Nat)
    (hn : idIn T0 (.text text) = some n) : idIn T (.text text) = some n ∧ n ≤ T0.symbols.length ∧
      Table.text T0.contents n = .ok (some text) ∧ Table.text T.contents n = .ok (some text) := by
  have hc := table_of_imports h0 h
  have key : ∀ (U : SymbolTable), (U.symbols.findIdx? (fun k => k.text = some text)) = U.contents.findIdx? (fun m => m.1 = some text) := by
    intro U; simp [contents, List.findIdx?_map, Function.comp_def]
  have h1 := text_of_first hn
  simp only [idIn, Option.map_eq_some_iff] at hn
  obtain ⟨i, hi, rfl⟩ := hn
  have hlt : i < T0.symbols.length := by
    rw [List.findIdx?_eq_some_iff_getElem] at hi; exact hi.1
  have hT : idIn T (.text text) = some (i + 1) := by
    simp only [idIn]
    rw [key, hc, List.findIdx?_append, ← key, hi]
    rfl
  exact ⟨hT, by omega, h1, text_of_first hT⟩

/-- **C14** (IDs resolve).  The ID that the writer uses for a symbol is defined in the table of the segment with exactly the
text that the caller supplied; for a token without text, with the text that its ID has before any local symbol. -/
theorem C14_ids_resolve (imports : Option (List SymbolTable)) (T0 T : SymbolTable) (syms : List Text)
    (h0 : SymbolTable.new .local [] (imports := imports) = .ok T0)
    (h : SymbolTable.new .local (syms.map some) (imports := imports) = .ok T) (a : SymArg) (hg : GoodSym T0.symbols.length a)
    (n : Nat) (hn : idIn T a = some n) : ∃ x, Table.text T.contents n = .ok x ∧ argText T0.contents a = some x :=
  argText_of_id (table_of_imports h0 h) a hg n hn

/-! ## Values that do not come back -/

/-- The event of the symbol `$ion_1_0`, given to the writer as a value. -/
def markerSymbol : IonEvent := { eventType := .scalar, ionType := some .symbol, value := .ok (some (.str TEXT_ION_1_0)) }

/-- **C12** (negative).  The symbol `$ion_1_0` is written without complaint, but read as nothing. -/
theorem C12_marker_symbol_lost :
    (runEvents (step none) init [markerSymbol, ION_STREAM_END_EVENT]).2.toOption.isSome = true ∧
    (runEvents (step none) init [markerSymbol, ION_STREAM_END_EVENT]).1.flatten = IVM ++ [0xE6, 0x81, 0x83, 0xDE, 0x82, 0x87, 0xB0, 0x71, 0x02] ∧
    ManagedReader.runFuel 20 (ManagedReader.init []) [.next, .data (IVM ++ [0xE6, 0x81, 0x83, 0xDE, 0x82, 0x87, 0xB0, 0x71, 0x02])] =
      some [.ok ⟨.streamEnd, none, .ok none, .ok none, .ok [], none⟩, .ok ⟨.streamEnd, none, .ok none, .ok none, .ok [], none⟩] := by
  refine ⟨by decide +kernel, by decide +kernel, by decide +kernel⟩

/-- The events of the value `$ion_symbol_table::{}`. -/
def tableStruct : List IonEvent :=
  [{ eventType := .containerStart, ionType := some .struct, annotations := [.text TEXT_ION_SYMBOL_TABLE] }, containerEnd, ION_STREAM_END_EVENT]

/-- **C12** (negative).  An empty struct with the annotation `$ion_symbol_table` is written without complaint, but read as
nothing. -/
theorem C12_annotated_struct_lost :
    (runEvents (step none) init tableStruct).2.toOption.isSome = true ∧
    (runEvents (step none) init tableStruct).1.flatten = IVM ++ [0xE6, 0x81, 0x83, 0xDE, 0x82, 0x87, 0xB0, 0xE3, 0x81, 0x83, 0xD0] ∧
    ManagedReader.runFuel 20 (ManagedReader.init []) [.next, .data (IVM ++ [0xE6, 0x81, 0x83, 0xDE, 0x82, 0x87, 0xB0, 0xE3, 0x81, 0x83, 0xD0])] =
      some [.ok ⟨.streamEnd, none, .ok none, .ok none, .ok [], none⟩, .ok ⟨.streamEnd, none, .ok none, .ok none, .ok [], none⟩] := by
  refine ⟨by decide +kernel, by decide +kernel, by decide +kernel⟩

/-! ## Example: a shared table `t` with the symbol `abc` -/

/-- The shared table. -/
def sampleShared : SymbolTable := (sharedSymbolTable [116] 1 [some [97, 98, 99]]).toOption.getD SYSTEM_SYMBOL_TABLE

theorem sampleShared_new : sharedSymbolTable [116] 1 [some [97, 98, 99]] = .ok sampleShared := by rfl

/-- Non-vacuity of C15: the sample document with the import, twice, with version markers and flushes. -/
example : ∃ T0 catalog, SymbolTable.new .local [] (imports := some [sampleShared]) = .ok T0 ∧
    Catalog.Spec.registerAll [sampleShared] = .ok catalog ∧ (∀ t ∈ [sampleShared], Catalog.Spec.Shared t) ∧
    (∀ t ∈ [sampleShared], Available [sampleShared] t) ∧
    ∀ b ∈ [Batch.mk 0 sampleEvents, Batch.mk 2 sampleEvents], Returns T0.contents T0.symbols.length b.values := by
  obtain ⟨T0, h0, -, -, -, -, -, hc⟩ := new_local_spec [] (some [sampleShared]) false
  obtain ⟨t0, rest, hsys⟩ : ∃ t0 : Table, ∃ rest, T0.contents = systemTable ++ rest := by
    refine ⟨[], ?_⟩
    rw [hc]
    simp only [List.append_assoc]
    exact ⟨_, by rw [show SYSTEM_SYMBOL_TOKENS.map (fun k => (k.text, k.location)) = systemTable from by decide +kernel]⟩
  have hlen : 9 ≤ T0.symbols.length := by
    have := congrArg List.length hsys
    simp only [contents, List.length_map, List.length_append] at this
    have h9 : systemTable.length = 9 := by rfl
    omega
  have h4 : Table.text T0.contents 4 = .ok (some TEXT_NAME) := by
    rw [hsys, text_extend (by decide)]; decide +kernel
  refine ⟨T0, _, h0, rfl, ?_, ?_, ?_⟩
  · intro t ht
    simp only [List.mem_singleton] at ht
    subst ht
    exact ⟨_, _, _, _, sampleShared_new⟩
  · intro t ht
    simp only [List.mem_singleton] at ht
    subst ht
    refine ⟨⟨[116], 1, rfl, rfl, rfl⟩, ?_⟩
    intro n hn
    have : n = [116] := by
      have h : sampleShared.name = some [116] := rfl
      rw [h] at hn; exact (Option.some.inj hn).symm
    subst this
    simp [EncodableText]
  · intro b hb
    have hv : b.values = sampleEvents := by
      simp only [List.mem_cons, List.not_mem_nil, or_false] at hb
      rcases hb with rfl | rfl <;> rfl
    rw [hv]
    refine ⟨⟨_, given_iff.2 (by simp [sampleEvents, asToken, Tree.run, Tree.step, Tree.empty, Tree.inStruct, fieldOf, allSome, argText, ctype, denote, h4, containerEnd]; rfl), ?_⟩, ?_, ?_⟩
    · simp [SystemLike, TEXT_ION_SYMBOL_TABLE]
    · intro e he
      simp only [sampleEvents, List.mem_cons, List.not_mem_nil, or_false] at he
      rcases he with rfl | rfl | rfl | rfl | rfl <;> refine ⟨?_, ?_, ?_⟩ <;>
        simp [GoodSym, EncodableText, containerEnd, symbolOfValue]
      omega
    · intro e he
      simp only [sampleEvents, List.mem_cons, List.not_mem_nil, or_false] at he
      rcases he with rfl | rfl | rfl | rfl | rfl <;>
      simp [containerEnd, RegularEvent, EncodableEvent, ReadableEvent, RegularVal, EncodableVal]

end Ion.ManagedWriter
