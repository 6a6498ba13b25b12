import Verif.SimpleText
import Verif.Props.Loading
import Verif.Props.Text
import Verif.ManagedText
import Verif.TextDocSpec
set_option linter.unusedSimpArgs false
/-!
# C48: `dump` and `load` with Ion text
-/
namespace Ion.Simple
open Ion Ion.Spec Ion.Simple.Spec Ion.ManagedWriter
open Ion.ManagedReader (Event Context thunkEvent Means)
open Ion.TextSpec (TSym symbolText scalarValue eventsOf eventsOfAll docEvents)

/-! ## Symbols of text -/


/-- The same, as a token. -/
def findSym (t : Table) : TSym → Except PyErr SymbolToken
  | .text s => .ok ⟨some s, none, none⟩
  | .sid n => t.find n

theorem resolve_sym {ctx : Context} {t : Table} (h : Means ctx t) (s : TSym) : ctx.resolve (.tok s.token) = findSym t s := by
  cases s with
  | text s => rfl
  | sid n => exact ManagedReader.resolve_sid h n

theorem findSym_of_text {t : Table} {s : TSym} {x : Option Text} (h : symbolText t s = .ok x) :
    ∃ k, findSym t s = .ok k ∧ k.text = x ∧ SymbolToken.new k.text k.sid k.location = .ok k := by
  cases s with
  | text s => cases h; exact ⟨_, rfl, rfl, rfl⟩
  | sid n =>
    obtain ⟨k, h1, h2⟩ := find_of_text h
    refine ⟨k, h1, h2, ?_⟩
    have : k.sid.isNone = false := by
      unfold Table.find at h1
      split at h1
      · cases h1; rfl
      · split at h1
        · cases h1; rfl
        · cases h1
    simp [SymbolToken.new, this]

theorem annotations_of_text {ctx : Context} {t : Table} (hm : Means ctx t) : ∀ {as : List TSym} {xs : List (Option Text)},
    as.map (symbolText t) = xs.map .ok →
    ∃ ks, ManagedReader.annotationsThunk ctx (as.map fun s => .tok s.token) = .ok ks ∧ allSome seenText (ks.map .tok) = some xs := by
  intro as
  induction as with
  | nil => intro xs h; cases xs with
    | nil => exact ⟨[], rfl, rfl⟩
    | cons _ _ => simp at h
  | cons s as ih =>
    intro xs h
    cases xs with
    | nil => simp at h
    | cons x xs =>
      simp only [List.map_cons, List.cons.injEq] at h
      obtain ⟨k, hk, hx, -⟩ := findSym_of_text h.1
      obtain ⟨ks, h1, h2⟩ := ih h.2
      refine ⟨k :: ks, by simp only [List.map_cons, ManagedReader.annotationsThunk, resolve_sym hm, hk, h1], ?_⟩
      simp [allSome, seenText, h2, hx]

theorem field_of_sym {ctx : Context} {t : Table} (hm : Means ctx t) {f : Option TSym} {x : Option (Option Text)} (h : f.map (symbolText t) = x.map .ok) :
    ∃ k : Option SymbolToken, ManagedReader.fieldThunk ctx (f.map fun s => .tok s.token) = .ok k ∧ k.map (·.text) = x := by
  cases f with
  | none => cases x with
    | none => exact ⟨none, rfl, rfl⟩
    | some _ => simp at h
  | some s =>
    cases x with
    | none => simp at h
    | some x =>
      simp only [Option.map_some, Option.some.injEq] at h
      obtain ⟨k, hk, hx, -⟩ := findSym_of_text h
      exact ⟨some k, by simp only [Option.map_some, ManagedReader.fieldThunk, resolve_sym hm, hk], by simp [hx]⟩

/-! ## What `load` makes of the events of text values -/

/-- Field names stand exactly inside structs; timestamps are in normal form. -/
inductive Shaped : Bool → List (Spec.Node TSym) → Prop
  | nil (s : Bool) : Shaped s []
  | scalar (s : Bool) (f : Option TSym) (a : List TSym) (x : Scalar TSym) (ns : List (Spec.Node TSym)) : f.isSome = s →
      (∀ t, x = .timestamp t → (∃ p, IsTimeValue t p) ∧ Scalars.FracOk t.frac) → Shaped s ns → Shaped s (.scalar f a x :: ns)
  | cont (s : Bool) (f : Option TSym) (a : List TSym) (ty : CType) (items ns : List (Spec.Node TSym)) : f.isSome = s →
      Shaped (ty = .struct) items → Shaped s ns → Shaped s (.cont f a ty items :: ns)

/-- The event of a scalar. -/
def textScalar (d : Nat) (f : Option TSym) (a : List TSym) (x : Scalar TSym) : IonEvent :=
  { eventType := .scalar, ionType := some x.ty, value := .ok (scalarValue x), fieldName := f.map fun s => .tok s.token, annotations := a.map fun s => .tok s.token, depth := some d }

theorem text_scalar_object {ctx : Context} {t : Table} (hm : Means ctx t) {d : Nat} {f : Option TSym} {a : List TSym} {x : Scalar TSym}
    {a' : List (Option Text)} {y : Scalar (Option Text)} (hx : ∀ t, x = .timestamp t → (∃ p, IsTimeValue t p) ∧ Scalars.FracOk t.frac)
    (ha : a.map (symbolText t) = a'.map .ok) (hy : x.map (symbolText t) = y.map .ok) :
    ∃ o, scalarObj (thunkEvent ctx (textScalar d f a x)) = .ok o ∧ Native o ∧ ∀ b f', IsValue b seenText f' o (.scalar f' a' y) := by
  obtain ⟨ks, hks1, hks2⟩ := annotations_of_text hm ha
  simp only [scalarObj, thunkEvent, textScalar, hks1]
  cases x <;> cases y <;> simp only [Scalar.map, reduceCtorEq, Scalar.null.injEq, Scalar.bool.injEq, Scalar.int.injEq,
    Scalar.float.injEq, Scalar.decimal.injEq, Scalar.timestamp.injEq, Scalar.symbol.injEq, Scalar.string.injEq,
    Scalar.clob.injEq, Scalar.blob.injEq] at hy
  case null ty ty' =>
    subst hy
    exact ⟨_, rfl, trivial, fun b f' => .null f' _ _ _ hks2⟩
  case bool v w =>
    subst hy
    refine ⟨.scalar (.ion (some .bool) (ks.map .tok)) (.int (if v then 1 else 0)), by simp [ManagedReader.valueThunk, scalarValue, Scalar.ty, IonType.isContainer, construct], ?_, fun b f' => ?_⟩
    · cases v <;> simp [Native, nativeScalar]
    · exact .scalar f' _ _ _ _ _ _ (.ion _ _) hks2 (by cases v <;> simp [scalarOf, denote])
  case symbol s z =>
    obtain ⟨k, hk1, rfl, hk3⟩ := findSym_of_text hy
    refine ⟨.scalar (.ion (some .symbol) (ks.map .tok)) (.sym k), ?_, by simp [Native, nativeScalar], fun b f' => ?_⟩
    · have : ctx.resolveValue (.sym s.token) = .ok k := by
        show ctx.resolve (.tok s.token) = _
        rw [resolve_sym hm, hk1]
      simp [ManagedReader.valueThunk, scalarValue, Scalar.ty, IonType.isContainer, construct, this, hk3]
    · exact .scalar f' _ _ _ _ _ _ (.ion _ _) hks2 (by simp [scalarOf, asSymbol, seenText])
  case timestamp v w =>
    subst hy
    obtain ⟨⟨p, hp⟩, hf⟩ := hx v rfl
    refine ⟨.scalar (.ion (some .timestamp) (ks.map .tok)) (.timestamp (.ts v)), ?_, by simp [Native, nativeScalar, timeValue_normal hp], fun b f' => ?_⟩
    · simp [ManagedReader.valueThunk, scalarValue, Scalar.ty, IonType.isContainer, construct, rebuild_time hp hf]
    · exact .scalar f' _ _ _ _ _ _ (.ion _ _) hks2 (by simp [scalarOf, denote, timeValue_normal hp])
  all_goals
    subst hy
    refine ⟨_, rfl, by simp [Native, nativeScalar, Scalar.ty], fun b f' => ?_⟩
    exact .scalar f' _ _ _ _ _ _ (.ion _ _) hks2 (by simp [scalarOf, denote, Scalar.ty])

theorem text_add_push {ctx : Context} {t : Table} (hm : Means ctx t) {s : Bool} {f : Option TSym} {x : Option (Option Text)} (hs : f.isSome = s)
    (h : f.map (symbolText t) = x.map .ok) {out : Out} (ho : out.isDict = s) {e : Event}
    (he : e.fieldName = ManagedReader.fieldThunk ctx (f.map fun s => .tok s.token)) (o : PyObj) :
    out.add e o = .ok (out.push (x.getD none, o)) ∧ x = (if s then some (x.getD none) else none) := by
  obtain ⟨k, hk1, hk2⟩ := field_of_sym hm h
  rw [← he] at hk1
  cases f with
  | none =>
    simp only [Option.isSome_none] at hs
    subst hs
    cases out with
    | dict => cases ho
    | list l =>
      cases x with
      | some _ => simp at h
      | none => exact ⟨rfl, rfl⟩
  | some n =>
    simp only [Option.isSome_some] at hs
    subst hs
    cases out with
    | list => cases ho
    | dict m =>
      cases x with
      | none => simp at h
      | some x =>
        cases k with
        | none => cases hk2
        | some k =>
          simp only [Option.map_some, Option.some.injEq] at hk2
          subst hk2
          exact ⟨by simp [Out.add, hk1, Out.push], rfl⟩

/-- What `load` makes of the events of text values. -/
theorem load_text_values {ctx : Context} {t : Table} (hm : Means ctx t)
    {s : Bool} {items : List (Spec.Node TSym)} (hf : Shaped s items) : ∀ {texts : List Val},
    items.map (Node.map (symbolText t)) = texts.map (Node.map .ok) → ∃ ps, List.Forall₂ (Loaded s) ps texts ∧
      ∀ {R : Type} (step : R → RawReader.Cmd → Option (Except PyErr Event × R)) d endType (out : Out) src src2, (endType = .containerEnd ∨ endType = .streamEnd) → out.isDict = s →
        Delivers step src ((eventsOfAll d items).map (thunkEvent ctx)) src2 →
        loadLoop step endType out src = loadLoop step endType (ps.foldl Out.push out) src2 := by
  induction hf with
  | nil s =>
    intro texts h
    cases texts with
    | cons => simp at h
    | nil =>
      refine ⟨[], .nil, ?_⟩
      intro R step d endType out src src2 _ _ hd
      cases hd
      rfl
  | scalar s f a x ns hfs hx _ ih =>
    intro texts h
    cases texts with
    | nil => simp at h
    | cons y texts =>
      simp only [List.map_cons, List.cons.injEq] at h
      obtain ⟨h1, h2⟩ := h
      cases y with
      | cont => simp [Node.map] at h1
      | scalar f' a' y =>
        simp only [Node.map, Node.scalar.injEq] at h1
        obtain ⟨hfield, hann, hval⟩ := h1
        obtain ⟨ps, i1, i2⟩ := ih h2
        have hobj := fun d => text_scalar_object hm (d := d) (f := f) hx hann hval
        obtain ⟨o, o1, o2, o3⟩ := hobj 0
        have o1' : ∀ d, scalarObj (thunkEvent ctx (textScalar d f a x)) = .ok o := fun d => o1
        refine ⟨(f'.getD none, o) :: ps, .cons ⟨o2, ?_, fun b => ⟨_, o3 b _, .scalar _ _ _⟩⟩ i1, ?_⟩
        · exact (text_add_push hm (e := thunkEvent ctx (textScalar 0 f a x)) (out := if s then .dict [] else .list []) hfs hfield (by cases s <;> rfl) rfl o).2
        · intro R step d endType out src src2 he ho hd
          simp only [eventsOfAll, eventsOf, List.singleton_append, List.map_cons] at hd
          cases hd with
          | cons _ src1 _ _ _ d1 d2 =>
          rw [loadLoop.eq_def, d1]
          change _ = loadLoop step endType (ps.foldl Out.push (out.push (f'.getD none, o))) src2
          have hne : ¬ (thunkEvent ctx (textScalar d f a x)).eventType = endType := by
            rcases he with rfl | rfl <;> simp [thunkEvent, textScalar]
          have hadd := (text_add_push hm (e := thunkEvent ctx (textScalar d f a x)) hfs hfield ho rfl o).1
          have hty : (thunkEvent ctx (textScalar d f a x)).eventType = .scalar := rfl
          change ((some (Except.ok (thunkEvent ctx (textScalar d f a x)), src1)).bind _) = _
          simp only [Option.bind_some, hne, if_false, o1' d, hadd, hty, reduceCtorEq, if_true]
          rw [if_neg (by rcases he with rfl | rfl <;> simp)]
          exact i2 step d endType _ src1 src2 he (by rw [push_isDict, ho]) d2
  | cont s f a ty items ns hfs _ _ ih1 ih2 =>
    intro texts h
    cases texts with
    | nil => simp at h
    | cons y texts =>
      simp only [List.map_cons, List.cons.injEq] at h
      obtain ⟨h1, h2⟩ := h
      cases y with
      | scalar => simp [Node.map] at h1
      | cont f' a' ty' items' =>
        simp only [Node.map, Node.cont.injEq, mapAll_eq] at h1
        obtain ⟨hfield, hann, rfl, hit⟩ := h1
        obtain ⟨qs, j1, j2⟩ := ih1 hit
        obtain ⟨ps, i1, i2⟩ := ih2 h2
        obtain ⟨ks, hks1, hks2⟩ := annotations_of_text hm hann
        obtain ⟨o2, o3⟩ := loaded_container hks2 j1
        generalize hob : (qs.foldl Out.push (if ty.ty = .struct then .dict [] else .list [])).obj ty.ty ks = o at o2 o3
        refine ⟨(f'.getD none, o) :: ps, .cons ⟨o2, ?_, fun b => o3 b _⟩ i1, ?_⟩
        · exact (text_add_push hm (e := thunkEvent ctx (textScalar 0 f a (.null .null))) (out := if s then .dict [] else .list []) hfs hfield (by cases s <;> rfl) rfl o).2
        · intro R step d endType out src src2 he ho hd
          simp only [eventsOfAll, eventsOf, List.cons_append, List.append_assoc, List.map_cons, List.map_append, List.map_nil, List.nil_append] at hd
          cases hd with
          | cons _ src1 _ _ _ d1 d2 =>
          obtain ⟨src3, d3, d4⟩ := d2.split
          cases d4 with
          | cons _ src4 _ _ _ d5 d6 =>
          rw [loadLoop.eq_def, d1]
          generalize hev : thunkEvent ctx { eventType := .containerStart, ionType := some ty.ty, fieldName := f.map fun s => .tok s.token, annotations := a.map fun s => .tok s.token, depth := some (d : Int) } = ev
          have hty : ev.eventType = .containerStart := by rw [← hev]; rfl
          have hne : ¬ ev.eventType = endType := by rw [hty]; rcases he with rfl | rfl <;> simp
          have hadd := (text_add_push hm (e := ev) hfs hfield ho (by rw [← hev]; rfl) o).1
          have hnew : newContainer ev = .ok (if ty.ty = .struct then .dict [] else .list [], ty.ty, ks) := by
            rw [← hev]
            simp [newContainer, thunkEvent, hks1]
          have hinner := j2 step (d + 1) .containerEnd (if ty.ty = .struct then .dict [] else .list []) src1 src3 (.inl rfl)
            (by cases ty <;> rfl) d3
          have hdone : loadLoop step .containerEnd (qs.foldl Out.push (if ty.ty = .struct then .dict [] else .list [])) src3 =
              some (.ok (qs.foldl Out.push (if ty.ty = .struct then .dict [] else .list []), src4)) := by
            rw [loadLoop.eq_def, d5]
            simp [bind, thunkEvent]
          rw [hdone] at hinner
          simp only [bind, Option.bind_some, hne, if_false, hnew, hinner, hob, hadd]
          simp only [hty, if_true]
          exact i2 step d endType _ src4 src2 he (by rw [push_isDict, ho]) d6

end Ion.Simple
