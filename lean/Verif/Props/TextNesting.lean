import Verif.TextCalls
import Verif.Props.Nesting
set_option linter.unusedSimpArgs false
/-!
# C51: events of the text reader are well nested, for every input

Nothing is assumed about the characters: they may be no Ion text at all, and the caller may send any requests in any order (see
`C51_skip_after_sibling` for `SKIP`).
-/
namespace Ion.Spec
open Ion

/-- The types of the open containers after an event of the text reader, given those before; `none` if the event does not fit.
Values and container starts have the depth of their place, and a field name exactly inside a struct, except that a symbol without
annotations may come without a field name inside a struct (`C51_symbol_without_field_name`).  A container end has the type of the innermost container
and the depth of its start; version markers come at the top level. -/
def nestText (opens : List IonType) (e : IonEvent) : Option (List IonType) :=
  let here := e.depth = some (opens.length : Int)
  let named := e.fieldName.isSome = true ↔ opens.head? = some .struct
  let bare := opens.head? = some .struct ∧ e.fieldName = none ∧ e.ionType = some .symbol ∧ e.annotations = []
  match e.eventType with
  | .scalar => if here ∧ (named ∨ bare) ∧ e.ionType.isSome = true then some opens else none
  | .containerStart => match e.ionType with
    | some ty => if here ∧ named ∧ ty.isContainer then some (ty :: opens) else none
    | none => none
  | .containerEnd => match opens with
    | ty :: os => if e.ionType = some ty ∧ e.depth = some (os.length : Int) then some os else none
    | [] => none
  | .versionMarker => if opens = [] ∧ e.depth = some 0 then some opens else none
  | .streamEnd | .incomplete => some opens

/-- A whole sequence of events fits. -/
def nestTextAll (opens : List IonType) : List IonEvent → Option (List IonType)
  | [] => some opens
  | e :: es => (nestText opens e).bind fun o => nestTextAll o es

end Ion.Spec

namespace Ion.TextReader
open Ion Ion.Spec

/-- Where the reader is: the open containers, whether a field name is expected, whether a delimiter is. -/
structure Spot where
  opens : List IonType
  isField : Bool
  delim : Bool

/-- The place after a value. -/
def Spot.past (P : Spot) : Spot := { P with delim := decide (P.opens.head? = some .struct ∨ P.opens.head? = some .list) }

def Spot.env (P : Spot) : Env := ⟨P.opens.head?, P.opens.length⟩

theorem inSexp_iff {P : Spot} : P.env.inSexp = true ↔ P.opens.head? = some .sexp := by
  unfold Env.inSexp
  exact decide_eq_true_iff

/-- The context of a child at a place. -/
def ChildOk (P : Spot) (x : Ctx) : Prop :=
  (P.opens.head? ≠ some .struct → x.fieldName = none) ∧
  (P.isField = true ∨ P.delim = true → x.fieldName = none ∧ x.annotations = []) ∧
  (P.opens.head? = some .struct → P.isField = false → P.delim = false → x.fieldName.isSome = true)

/-- A token of the given kind: a field name or a value. -/
def TokOk (P : Spot) (x : Ctx) (fld : Bool) : Prop := P.isField = fld ∧ P.delim = false ∧ (fld = true → P.opens.head? = some .struct) ∧ ChildOk P x

/-- An event that is held back. -/
def HeldOk (P : Spot) (e : IonEvent) : Prop := nestText P.opens e = some P.opens ∧ (e.eventType = .scalar ∨ e.eventType = .versionMarker)

/-- A handler and its context. -/
def HOk (P : Spot) (x : Ctx) : H → Prop
  | .slashEnd e => HeldOk P e ∧ P.isField = false
  | .comment none | .commentBody none _ _ => ChildOk P x
  | .comment (some h) | .commentBody (some h) _ _ => HOk P x h
  | .sexpSlash none e => P.opens.head? = some .sexp ∧ TokOk P x false ∧ ∀ e', e = some e' → HeldOk P e'
  | .sexpSlash (some h) e => HOk P x h ∧ P.opens.head? = some .sexp ∧ TokOk P x false ∧ ∀ e', e = some e' → HeldOk P e'
  | .negStart | .zeroStart | .number | .numeric _ _ | .ts _ | .shortString => TokOk P x false ∧ x.ionType.isSome = true
  | .long f cl _ _ _ => TokOk P x f ∧ (f = false → x.ionType.isSome = true) ∧ (cl = true → f = false)
  | .longSymbol e => HeldOk P e ∧ TokOk P x false ∧ P.opens.head? ≠ some .struct ∧ P.opens.head? ≠ some .list
  | .keyword s => TokOk P x s.isField
  | .unquoted f _ => TokOk P x f
  | .dollar s => TokOk P x s.isField
  | .shortField => TokOk P x true
  | .quotedSymbol f | .quote1 f | .quote2 f => TokOk P x f
  | .containerStart ty => TokOk P x false ∧ ty.isContainer = true
  | .operatorAfter _ => TokOk P x false ∧ P.opens.head? = some .sexp
  | _ => TokOk P x false

/-- What a handler returns. -/
def ResOk (P : Spot) (x : Ctx) : Res → Prop
  | .imm h => HOk P x h
  | .self => ChildOk P x
  | .event e => (∃ opens', nestText P.opens e = some opens' ∧ (opens' = P.opens ∧ (e.eventType = .scalar ∨ e.eventType = .versionMarker) ∨
      ∃ ty, e.eventType = .containerStart ∧ e.ionType = some ty ∧ opens' = ty :: P.opens))
  | .composite e next nx => HeldOk P e ∧ P.isField = false ∧ ChildOk P.past nx ∧ ∀ h, next = some h → HOk P.past nx h

/-- The same field name and annotations. -/
def Alike (x y : Ctx) : Prop := y.fieldName = x.fieldName ∧ y.annotations = x.annotations

theorem Alike.refl (x : Ctx) : Alike x x := ⟨rfl, rfl⟩
theorem Alike.trans {x y z : Ctx} (h : Alike x y) (h' : Alike y z) : Alike x z := ⟨h'.1.trans h.1, h'.2.trans h.2⟩
theorem alike_setType (x : Ctx) (ty : Option IonType) : Alike x (x.setType ty) := by unfold Ctx.setType; split <;> exact ⟨rfl, rfl⟩
theorem typed_setType (x : Ctx) (ty : IonType) : (x.setType (some ty)).ionType.isSome = true := by unfold Ctx.setType; split <;> simp_all
theorem typed_extend {x : Ctx} (f : Bool) (l : List Nat) (h : x.ionType.isSome = true) : (x.extend f l).ionType.isSome = true := by unfold Ctx.extend; split <;> exact h
theorem typed_setUnicode {x y : Ctx} {b : Bool} (h : x.setUnicode b = .ok y) : y.ionType = x.ionType := by
  unfold Ctx.setUnicode at h
  split at h
  · split at h
    · cases h; rfl
    · cases h
  · cases h; rfl
theorem alike_push (x : Ctx) (c : Nat) : Alike x (x.push c) := ⟨rfl, rfl⟩
theorem alike_setQuoted (x : Ctx) (b : Bool) : Alike x (x.setQuoted b) := ⟨rfl, rfl⟩
theorem alike_setPending (x : Ctx) (t : Tok) : Alike x (x.setPending t) := ⟨rfl, rfl⟩
theorem alike_extend (x : Ctx) (f : Bool) (l : List Nat) : Alike x (x.extend f l) := by unfold Ctx.extend; split <;> exact ⟨rfl, rfl⟩
theorem alike_setUnicode {x y : Ctx} {b : Bool} (h : x.setUnicode b = .ok y) : Alike x y := by
  unfold Ctx.setUnicode at h
  split at h
  · split at h
    · cases h; exact .refl _
    · cases h
  · cases h; exact ⟨rfl, rfl⟩

theorem ChildOk.alike {P : Spot} {x y : Ctx} (h : ChildOk P x) (ha : Alike x y) : ChildOk P y := by
  unfold ChildOk at *
  rw [ha.1, ha.2]
  exact h

theorem TokOk.alike {P : Spot} {x y : Ctx} {f : Bool} (h : TokOk P x f) (ha : Alike x y) : TokOk P y f := ⟨h.1, h.2.1, h.2.2.1, h.2.2.2.alike ha⟩
theorem TokOk.child {P : Spot} {x : Ctx} {f : Bool} (h : TokOk P x f) : ChildOk P x := h.2.2.2

/-- A fresh context after a value. -/
theorem child_past (P : Spot) (hf : P.isField = true → P.opens.head? = some .struct) : ChildOk P.past {} := by
  refine ⟨fun _ => rfl, fun _ => ⟨rfl, rfl⟩, fun h _ h' => ?_⟩
  have : P.opens.head? = some .struct := h
  simp [Spot.past, this] at h'

/-- The event of a value that has a field name exactly inside a struct. -/
theorem event_named {P : Spot} {x : Ctx} {ty : IonType} {v : Except PyErr (Option PyVal)} (h : x.fieldName.isSome = true ↔ P.opens.head? = some .struct) :
    HeldOk P (x.event P.env.depth (some ty) v) := by
  refine ⟨?_, .inl rfl⟩
  unfold nestText
  simp only [Ctx.event, Option.isSome_map]
  exact if_pos ⟨rfl, .inl h, rfl⟩

theorem TokOk.named {P : Spot} {x : Ctx} (h : TokOk P x false) : x.fieldName.isSome = true ↔ P.opens.head? = some .struct := by
  obtain ⟨h1, h2, _, h3, h4, h5⟩ := h
  refine ⟨fun h => ?_, fun h => h5 h h1 h2⟩
  refine Classical.byContradiction fun hn => ?_
  rw [h3 hn] at h
  cases h

/-- The event of a value. -/
theorem event_fits {P : Spot} {x : Ctx} {ty : IonType} {v : Except PyErr (Option PyVal)} (h : TokOk P x false) :
    HeldOk P (x.event P.env.depth (some ty) v) := event_named h.named

/-- The event of a symbol. -/
theorem symbol_named {P : Spot} {x : Ctx} {t : Tok} {e : IonEvent} (h : ∀ v, HeldOk P (x.event P.env.depth (some .symbol) v)) (he : x.symbolEvent P.env.depth t = .ok e) : HeldOk P e := by
  cases t with
  | ivm k =>
    simp only [Ctx.symbolEvent] at he
    split at he
    · rename_i h1
      split at he
      · cases he
        refine ⟨?_, .inr rfl⟩
        have : P.opens = [] := List.length_eq_zero_iff.1 h1.2
        simp [nestText, ION_VERSION_MARKER_EVENT, this]
      · cases he
    · cases he
  | _ =>
    simp only [Ctx.symbolEvent] at he
    cases he
    exact h _

/-- The event of a symbol where a value or a field name may start. -/
theorem symbol_fits {P : Spot} {x : Ctx} {f : Bool} {t : Tok} {e : IonEvent} (h : TokOk P x f) (he : x.symbolEvent P.env.depth t = .ok e) : HeldOk P e := by
  refine symbol_named (fun v => ?_) he
  cases f with
  | false => exact event_fits h
  | true =>
    refine ⟨?_, .inl rfl⟩
    obtain ⟨h1, h2, h3, h4, h5, h6⟩ := h
    obtain ⟨h7, h8⟩ := h5 (.inl h1)
    unfold nestText
    simp only [Ctx.event, h7, h8, Option.map_none, List.map_nil]
    exact if_pos ⟨rfl, .inr ⟨h3 rfl, trivial, trivial, trivial⟩, rfl⟩

theorem held_event {P : Spot} {x : Ctx} {e : IonEvent} (h : HeldOk P e) : ResOk P x (.event e) := ⟨_, h.1, .inl ⟨rfl, h.2⟩⟩

/-- What a handler makes of a character. -/
def Fits (P : Spot) (r : Except PyErr Out) : Prop := ∀ o, r = .ok o → ResOk P o.ctx o.res

/-- What the creation of a handler gives. -/
def Makes (P : Spot) (r : Except PyErr (Ctx × H)) : Prop := ∀ x h, r = .ok (x, h) → HOk P x h

theorem fits_error {P : Spot} {e : PyErr} : Fits P (.error e) := by rintro o ⟨⟩
theorem fits_ok {P : Spot} {o : Out} (h : ResOk P o.ctx o.res) : Fits P (.ok o) := by rintro o' ⟨⟩; exact h
theorem makes_error {P : Spot} {e : PyErr} : Makes P (.error e) := by rintro x h ⟨⟩
theorem makes_ok {P : Spot} {x : Ctx} {h : H} (hh : HOk P x h) : Makes P (.ok (x, h)) := by rintro x h ⟨⟩; exact hh
theorem fits_andGo {P : Spot} {r : Except PyErr (Ctx × H)} {u : Option Nat} (h : Makes P r) : Fits P (andGo r u) := by
  unfold andGo
  split
  · exact fits_error
  · exact fits_ok (h _ _ rfl)

variable {P : Spot} {x : Ctx} {F : FloatText}

theorem makes_unicode {b : Bool} {f : Ctx → Except PyErr (Ctx × H)} (h : ∀ y, Alike x y → Makes P (f y)) :
    Makes P (match x.setUnicode b with | .error err => .error err | .ok x => f x) := by
  split
  · exact makes_error
  · rename_i y hy
    exact h y (alike_setUnicode hy)

theorem makes_operator {c : Nat} (h : TokOk P x false) : Makes P (mkOperator c x) :=
  makes_unicode fun y hy => makes_ok (h.alike (hy.trans (alike_push _ _)))

theorem makes_unquoted {c : Nat} {f : Bool} (h : TokOk P x f) (hf : f = true → P.opens.head? = some .struct) : Makes P (mkUnquoted P.env c x f) := by
  refine makes_unicode fun y hy => ?_
  split
  · exact makes_ok (h.alike (hy.trans (alike_push _ _)))
  · split
    · rename_i hs
      simp only [Bool.and_eq_true, inSexp_iff] at hs
      have hff : f = false := by
        cases f with
        | false => rfl
        | true => have := (hf rfl).symm.trans hs.1; simp at this
      subst hff
      exact makes_ok ⟨h.alike hy, hs.1⟩
    · exact makes_error

theorem makes_numeric {k : NumKind} {c : Nat} (h : TokOk P x false) (hx : x.ionType.isSome = true) : Makes P (mkNumeric k c x) := by
  have h1 : ∀ ty c, TokOk P ((x.setType (some ty)).push c) false ∧ ((x.setType (some ty)).push c).ionType.isSome = true :=
    fun ty c => ⟨h.alike ((alike_setType _ _).trans (alike_push _ _)), typed_setType x ty⟩
  have h2 : ∀ c, TokOk P (x.push c) false ∧ (x.push c).ionType.isSome = true := fun c => ⟨h.alike (alike_push _ _), hx⟩
  unfold mkNumeric
  split
  · exact makes_ok (h1 _ _)
  · exact makes_ok (h1 _ _)
  · exact makes_ok (h1 _ _)
  · split
    · exact makes_ok ⟨h, hx⟩
    · exact makes_ok (h2 _)
  · split
    · exact makes_ok (h2 _)
    · exact makes_error
  · split
    · exact makes_ok (h2 _)
    · exact makes_error

theorem makes_timestamp {c : Nat} (h : TokOk P x false) : Makes P (mkTimestamp c x) := by
  unfold mkTimestamp
  dsimp only
  split
  · exact makes_error
  · exact makes_ok ⟨h.alike (alike_setType _ _), typed_setType _ _⟩

theorem makes_zero {c : Nat} (h : TokOk P x false) : Makes P (mkZeroStart c x) := by
  unfold mkZeroStart
  split
  · exact makes_ok ⟨h.alike ((alike_setType _ _).trans (alike_push _ _)), typed_setType x .int⟩
  · exact makes_error

theorem makes_tsZero {c : Nat} (h : TokOk P x false) : Makes P (mkTsZero c x) := by
  unfold mkTsZero
  dsimp only
  split
  · exact makes_error
  · split
    · exact makes_error
    · exact makes_ok (h.alike ((alike_setType _ _).trans (alike_push _ _)))

theorem makes_whole {c : Nat} {d : Bool} (h : TokOk P x false) (hx : x.ionType.isSome = true) : Makes P (wholeTable d c x) := by
  unfold wholeTable
  split
  · exact makes_numeric h hx
  · split
    · exact makes_numeric h hx
    · split
      · exact makes_numeric h hx
      · exact makes_error

theorem makes_quotedSymbol {c : Ch} {f : Bool} (h : TokOk P x f) : Makes P (mkQuotedSymbol c x f) := by
  unfold mkQuotedSymbol
  split
  · exact makes_error
  · refine makes_unicode fun y hy => ?_
    split
    · exact makes_error
    · split
      · exact makes_error
      · split
        · exact makes_error
        · split
          · exact makes_ok (h.alike hy)
          · exact makes_ok (h.alike (hy.trans (alike_push _ _)))

theorem makes_short {f : Bool} (h : TokOk P x f) : Makes P (mkShort x f) := by
  unfold mkShort
  dsimp only
  refine makes_unicode fun y hy => ?_
  split
  · rename_i hf
    subst hf
    split
    · exact makes_error
    · exact makes_ok (h.alike (hy.trans (alike_setPending _ _)))
  · rename_i hf
    have hf : f = false := by simpa using hf
    subst hf
    split
    · exact makes_ok (h.alike hy)
    · exact makes_ok ⟨h.alike (hy.trans (alike_setType _ _)), typed_setType _ _⟩

theorem makes_long {f : Bool} (h : TokOk P x f) : Makes P (mkLong x f) := by
  have key : ∀ y, Alike x y → (f = false → y.ionType.isSome = true) → ∀ z : Bool, (z = true → f = false) → Makes P (if y.value ≠ [] then .error .assertionError else match y.setUnicode true with
      | .error err => .error err
      | .ok x => .ok (if f then x.setPending (.text []) else x, .long f z 0 true true)) := by
    intro y hy hty z hz
    split
    · exact makes_error
    · split
      · exact makes_error
      · rename_i y' hy'
        split
        · rename_i hf
          exact makes_ok ⟨h.alike (hy.trans ((alike_setUnicode hy').trans (alike_setPending _ _))), by simp [hf], hz⟩
        · refine makes_ok ⟨h.alike (hy.trans (alike_setUnicode hy')), fun hf => ?_, hz⟩
          rw [typed_setUnicode hy']
          exact hty hf
  unfold mkLong
  dsimp only
  split
  · exact makes_error
  · rename_i hz
    have hz : decide (x.ionType = some .clob) = true → f = false := by
      intro h1
      rw [h1] at hz
      simpa using hz
    split
    · exact key _ (alike_setType _ _) (fun _ => typed_setType _ _) _ hz
    · rename_i hn
      refine key _ (.refl _) (fun hf => ?_) _ hz
      subst hf
      simp only [Bool.not_eq_eq_eq_not, Bool.not_false, Bool.and_true, decide_eq_true_eq, Bool.not_true, decide_eq_false_iff_not, Classical.not_not] at hn
      rw [hn]; rfl

theorem makes_clobEnd {c : Nat} (h : TokOk P x false) : Makes P (mkClobEnd c x) := by
  unfold mkClobEnd
  split
  · exact makes_ok h
  · split
    · exact makes_ok h
    · exact makes_error

theorem blob_alike {c prev d p : Nat} {y : Ctx} {d' p' : Nat} (h : blobAction c prev d p x = .ok (y, d', p')) : Alike x y := by
  unfold blobAction at h
  split at h
  · split at h
    · cases h
    · cases h; exact alike_push _ _
  · split at h
    · split at h
      · cases h
      · cases h; exact alike_push _ _
    · cases h

theorem makes_blobEnd {c : Nat} (h : TokOk P x false) : Makes P (mkBlobEnd c x) := by
  unfold mkBlobEnd
  split
  · exact makes_ok h
  · split
    · exact makes_error
    · rename_i y d p hy
      exact makes_ok (h.alike (blob_alike hy))

theorem makes_keyword {c : Nat} {f : Bool} (h : TokOk P x f) (hf : f = true → P.opens.head? = some .struct) : Makes P (mkKeyword P.env c x f) := by
  unfold mkKeyword
  split
  · split
    · exact makes_error
    · refine makes_unicode fun y hy => ?_
      exact makes_ok (h.alike (hy.trans ((alike_setType _ _).trans (alike_push _ _))))
  · split
    · rename_i hs
      simp only [Bool.and_eq_true, inSexp_iff] at hs
      have hff : f = false := by
        cases f with
        | false => rfl
        | true => have := (hf rfl).symm.trans hs.1; simp at this
      subst hff
      exact makes_ok h
    · exact makes_error

theorem makes_dollar {c : Nat} {f : Bool} (h : TokOk P x f) : Makes P (mkDollar P.env c x f) := by
  unfold mkDollar
  exact makes_unicode fun y hy => makes_ok (h.alike (hy.trans ((alike_setType _ _).trans (alike_push _ _))))

theorem makes_field {c : Nat} (h : TokOk P x true) : Makes P (fieldTable P.env c x) := by
  unfold fieldTable
  repeat' split
  · exact makes_ok h
  · exact makes_short h
  · exact makes_dollar h
  · exact makes_keyword h h.2.2.1
  · exact makes_error

theorem makes_value {c : Nat} (h : TokOk P x false) : Makes P (valueTable P.env c x) := by
  unfold valueTable
  repeat' split
  · exact makes_error
  · exact makes_ok ⟨h.alike ((alike_setType _ _).trans (alike_push _ _)), typed_setType x .int⟩
  · exact makes_ok (h.alike (alike_push _ _))
  · exact makes_zero h
  · exact makes_ok h
  · exact makes_ok ⟨h, rfl⟩
  · exact makes_ok ⟨h, rfl⟩
  · exact makes_ok h
  · exact makes_short h
  · exact makes_dollar h
  · exact makes_ok ⟨h.alike ((alike_setType _ _).trans (alike_push _ _)), typed_setType x .int⟩
  · exact makes_keyword h (by simp)

/-! ## Handlers -/

theorem fits_endNumber {c : Ch} {e : IonEvent} (h : HeldOk P e) (hf : P.isField = false) : Fits P (endNumber x c e) := by
  unfold endNumber
  split
  · exact fits_ok ⟨h, hf⟩
  · exact fits_ok (held_event h)

/-- The event of a value of the type that has been recognised. -/
theorem typed_fits {v : Except PyErr (Option PyVal)} (h : TokOk P x false) (hx : x.ionType.isSome = true) : HeldOk P (x.event P.env.depth x.ionType v) := by
  obtain ⟨ty, hty⟩ := Option.isSome_iff_exists.1 hx
  rw [hty]
  exact event_fits h

theorem fits_numeric {k : NumKind} {prev : Nat} {c : Ch} (h : TokOk P x false) (hx : x.ionType.isSome = true) : Fits P (onNumeric F P.env k prev x c) := by
  unfold onNumeric
  split
  · split
    · exact fits_error
    · exact fits_endNumber (typed_fits h hx) h.1
  · split
    · split
      · exact fits_error
      · exact fits_ok ⟨h, hx⟩
    · have h2 : ∀ c, TokOk P (x.push c) false ∧ (x.push c).ionType.isSome = true := fun c => ⟨h.alike (alike_push _ _), hx⟩
      split
      · exact fits_ok (h2 _)
      · unfold NumKind.transition
        split
        · split
          · exact fits_ok (h2 _)
          · exact fits_error
        · split
          · exact fits_ok (h2 _)
          · exact fits_error
        · split
          · exact fits_error
          · exact fits_andGo (makes_whole h hx)
        · split
          · exact fits_error
          · exact fits_andGo (makes_whole h hx)
        · exact fits_error
        · exact fits_error

theorem fits_ts {s : TsState} {c : Ch} (h : TokOk P x false) (hx : x.ionType.isSome = true) : Fits P (onTs P.env s x c) := by
  unfold onTs
  dsimp only
  repeat' split
  all_goals first | exact fits_error | exact fits_endNumber (typed_fits h hx) h.1 | exact fits_ok ⟨h, hx⟩

theorem commentStart_alike {c : Ch} {y : Ctx} {b : Bool} (h : commentStart x c = .ok (y, b)) : Alike x y ∧ y.ionType = x.ionType := by
  unfold commentStart at h
  repeat' split at h
  all_goals cases h
  all_goals exact ⟨⟨rfl, rfl⟩, rfl⟩

/-- Only the field name, the annotations and the type of the context matter. -/
theorem HOk.alike {y : Ctx} (ha : Alike x y) (hty : y.ionType = x.ionType) : (h : H) → HOk P x h → HOk P y h
  | .slashEnd _ => id
  | .comment none | .commentBody none _ _ => fun hh => ChildOk.alike hh ha
  | .comment (some h) | .commentBody (some h) _ _ => fun hh => HOk.alike ha hty h hh
  | .sexpSlash none _ => fun hh => ⟨hh.1, hh.2.1.alike ha, hh.2.2⟩
  | .sexpSlash (some h) _ => fun hh => ⟨HOk.alike ha hty h hh.1, hh.2.1, hh.2.2.1.alike ha, hh.2.2.2⟩
  | .negStart | .zeroStart | .number | .numeric _ _ | .ts _ | .shortString => fun hh => ⟨hh.1.alike ha, by rw [hty]; exact hh.2⟩
  | .long f _ _ _ _ => fun hh => ⟨hh.1.alike ha, by rw [hty]; exact hh.2.1, hh.2.2⟩
  | .longSymbol _ => fun hh => ⟨hh.1, hh.2.1.alike ha, hh.2.2⟩
  | .keyword _ | .unquoted _ _ | .dollar _ | .shortField | .quotedSymbol _ | .quote1 _ | .quote2 _ => fun hh => TokOk.alike hh ha
  | .containerStart _ => fun hh => ⟨hh.1.alike ha, hh.2⟩
  | .operatorAfter _ => fun hh => ⟨hh.1.alike ha, hh.2⟩
  | .tsZero | .typedNull _ | .operatorStart _ | .inf _ _ | .operator | .shortClob | .structOrLob | .lobStart _ | .blobEnd _ _ _ | .clobEnd _ => fun hh => TokOk.alike hh ha

theorem fits_comment {ret : Option H} {b : Bool} {prev : Option Nat} {c : Ch} (h : HOk P x (.commentBody ret b prev)) : Fits P (onComment ret b prev x c) := by
  unfold onComment
  dsimp only
  generalize (if b = true then decide (prev = some 42) && decide (c.code = 47) else isNewline c.code || decide (c.code = EOF)) = stop
  cases stop with
  | true =>
    refine fits_ok ?_
    cases ret with
    | none =>
      simp only [HOk] at h
      exact h.alike ⟨rfl, rfl⟩
    | some h' =>
      simp only [HOk] at h
      exact HOk.alike (x := x) (y := { x with selfDelim := true }) ⟨rfl, rfl⟩ rfl h' h
  | false =>
    refine fits_ok ?_
    cases ret with
    | none => simpa only [HOk, ResOk] using h
    | some h' => simpa only [HOk, ResOk] using h

theorem child_value (hs : P.opens.head? ≠ some .struct) (hl : P.opens.head? ≠ some .list) (hf : P.isField = false) {y : Ctx} (hy : y.fieldName = none) (ha : y.annotations = []) : TokOk P.past y false := by
  have hd : P.past.delim = false := by simp [Spot.past, hs, hl]
  exact ⟨hf, hd, by simp, fun _ => hy, fun _ => ⟨hy, ha⟩, fun h => absurd h hs⟩

theorem fits_thenOperator {e : IonEvent} {c u : Nat} (h : HeldOk P e) (hf : P.isField = false) (hs : P.opens.head? = some .sexp) : Fits P (thenOperator e c x u) := by
  unfold thenOperator
  have h1 := child_value (P := P) (y := {}) (by rw [hs]; simp) (by rw [hs]; simp) hf rfl rfl
  split
  · exact fits_error
  rename_i nx h' ha
  have h2 := makes_operator (c := c) h1 nx h' ha
  have h3 : h' = .operator := by
    simp only [mkOperator, Ctx.setUnicode] at ha
    cases ha; rfl
  subst h3
  exact fits_ok ⟨h, hf, TokOk.child h2, by rintro _ ⟨⟩; exact h2⟩

theorem fits_sexpSlash {ret : Option H} {e : Option IonEvent} {c : Ch} (h : HOk P x (.sexpSlash ret e)) : Fits P (onSexpSlash ret e x c) := by
  have hs : P.opens.head? = some .sexp := by cases ret with | none => exact h.1 | some _ => exact h.2.1
  have ht : TokOk P x false := by cases ret with | none => exact h.2.1 | some _ => exact h.2.2.1
  have he : ∀ e', e = some e' → HeldOk P e' := by cases ret with | none => exact h.2.2 | some _ => exact h.2.2.2
  have hr : HOk P x (.comment ret) := by
    cases ret with
    | none => exact ht.child
    | some h' => exact h.1
  unfold onSexpSlash
  split
  · exact fits_error
  split
  · exact fits_ok hr
  · split
    · exact fits_thenOperator (he _ rfl) ht.1 hs
    · exact fits_andGo (makes_operator ht)

theorem fits_longQuotes {f cl : Bool} {n : Nat} {c : Ch} (h : TokOk P x f) (hx : f = false → x.ionType.isSome = true) : Fits P (longQuotes P.env f cl n x c) := by
  unfold longQuotes
  split
  · exact fits_error
  · rename_i hf
    have hf : f = false := by simp at hf; exact hf.1
    subst hf
    split
    · exact fits_error
    · rename_i hd
      have hd : P.opens.head? ≠ some .struct ∧ P.opens.head? ≠ some .list := by
        simp only [Env.isDelimited, Bool.or_eq_true, not_or] at hd
        exact ⟨fun h => hd.1 (decide_eq_true h), fun h => hd.2 (decide_eq_true h)⟩
      dsimp only
      split
      · split
        · exact fits_error
        · exact fits_ok ⟨typed_fits h (hx rfl), h.alike (alike_setQuoted _ _), hd⟩
      · exact fits_ok ⟨typed_fits h (hx rfl), h.1, (child_value hd.1 hd.2 h.1 rfl rfl).child, by rintro _ ⟨⟩⟩

theorem fits_longAfter {f cl : Bool} {c : Ch} (h : TokOk P x f) (hx : f = false → x.ionType.isSome = true) (hc : cl = true → f = false) : Fits P (longAfter P.env f cl x c) := by
  unfold longAfter
  dsimp only
  split
  · rename_i hcl
    rw [hc hcl] at h
    exact fits_andGo (makes_clobEnd h)
  · split
    · split
      · rename_i hs
        have hs := inSexp_iff.1 hs
        have hf : f = false := by
          cases f with
          | false => rfl
          | true => have := (h.2.2.1 rfl).symm.trans hs; simp at this
        subst hf
        exact fits_ok ⟨⟨h, hx, hc⟩, hs, h, by rintro _ ⟨⟩; exact typed_fits h (hx rfl)⟩
      · refine fits_ok ?_
        exact (⟨h, hx, hc⟩ : HOk P x (.long f cl 0 false false))
    · split
      · split
        · exact fits_error
        · exact fits_ok h.child
      · rename_i hf
        have hf : f = false := by simpa using hf
        subst hf
        exact fits_ok (held_event (typed_fits h (hx rfl)))

theorem fits_long {f cl d first : Bool} {n : Nat} {c : Ch} (h : TokOk P x f) (hx : f = false → x.ionType.isSome = true) (hc : cl = true → f = false) :
    Fits P (onLong P.env f cl n d first x c) := by
  have key : ∀ y, Alike x y → y.ionType = x.ionType → Fits P (
      if c.code = 39 ∧ ¬ c.esc then
        if n = 2 then .ok { ctx := y.setQuoted (!d), res := .imm (.long f cl 0 (!d) false) }
        else .ok { ctx := y, res := .imm (.long f cl (n + 1) d false) }
      else if d then
        if badQuoted true cl c then .error .ionException
        else
          let l := List.replicate n 39 ++ (if isNewline c.code ∧ c.nl then [] else [c.code])
          .ok { ctx := y.extend f l, res := .imm (.long f cl 0 d false) }
      else if n > 0 then longQuotes P.env f cl n y c
      else if isWs c.code then .ok { ctx := y, res := .imm (.long f cl 0 d false) }
      else longAfter P.env f cl y c) := by
    intro y hy hty
    have h' := h.alike hy
    have hx' : f = false → y.ionType.isSome = true := by rw [hty]; exact hx
    split
    · split
      · exact fits_ok ⟨h'.alike (alike_setQuoted _ _), hx', hc⟩
      · exact fits_ok ⟨h', hx', hc⟩
    · split
      · split
        · exact fits_error
        · exact fits_ok ⟨h'.alike (alike_extend _ _ _), fun hf => typed_extend _ _ (hx' hf), hc⟩
      · split
        · exact fits_longQuotes h' hx'
        · split
          · exact fits_ok ⟨h', hx', hc⟩
          · exact fits_longAfter h' hx' hc
  exact key (if first then x else { x with selfDelim := false }) (by split <;> exact ⟨rfl, rfl⟩) (by split <;> rfl)

theorem keyword_fits {k : Kw} (h : TokOk P x false) : HeldOk P (k.event P.env x) := by
  cases k <;> exact event_fits h

/-- What a check for a keyword can give. -/
theorem check_fits {k : Kw} {f : Bool} {i c : Nat} {b : Bool} {r : Res} (h : TokOk P x f) (hr : checkKeyword P.env k f i x c = .ok (b, some r)) : ResOk P x r := by
  unfold checkKeyword at hr
  repeat' split at hr
  all_goals try (cases hr; done)
  all_goals cases hr
  · rename_i hf
    have hf : f = false := by simpa using hf
    subst hf
    exact h
  · rename_i hf
    have hf : f = false := by simpa using hf
    subst hf
    exact held_event (keyword_fits h)
  · rename_i hs
    simp only [Bool.and_eq_true, inSexp_iff] at hs
    have hf : f = false := by
      cases f with
      | false => rfl
      | true => have := (h.2.2.1 rfl).symm.trans hs.1; simp at this
    subst hf
    exact held_event (keyword_fits h)

theorem checks_fit {s s' : KwState} {c : Nat} {r : Option Res} (h : TokOk P x s.isField) (hr : keywordChecks P.env s x c = .ok (s', r)) :
    s'.isField = s.isField ∧ ∀ r', r = some r' → ResOk P x r' := by
  unfold keywordChecks at hr
  have key : ∀ (s1 : KwState) (r1 : Option Res), s1.isField = s.isField → (∀ r', r1 = some r' → ResOk P x r') →
      (if s1.maybeNan = true then do
        let r ← checkKeyword P.env .nan s1.isField s1.index x c
        return ({ s1 with maybeNan := r.1 }, r.2)
      else if s1.maybeTrue = true then do
        let r ← checkKeyword P.env .true_ s1.isField s1.index x c
        return ({ s1 with maybeTrue := r.1 }, r.2)
      else if s1.maybeFalse = true then do
        let r ← checkKeyword P.env .false_ s1.isField s1.index x c
        return ({ s1 with maybeFalse := r.1 }, r.2)
      else return (s1, r1) : Except PyErr (KwState × Option Res)) = .ok (s', r) → s'.isField = s.isField ∧ ∀ r', r = some r' → ResOk P x r' := by
    intro s1 r1 h1 h2 h3
    have one : ∀ (k : Kw) (g : Bool → KwState), (∀ b, (g b).isField = s.isField) →
        (do let r ← checkKeyword P.env k s1.isField s1.index x c
            return (g r.1, r.2) : Except PyErr (KwState × Option Res)) = .ok (s', r) → s'.isField = s.isField ∧ ∀ r', r = some r' → ResOk P x r' := by
      intro k g hg h4
      cases hc : checkKeyword P.env k s1.isField s1.index x c with
      | error e => rw [hc] at h4; cases h4
      | ok p =>
        obtain ⟨b, r2⟩ := p
        rw [hc] at h4
        cases h4
        refine ⟨hg b, ?_⟩
        rintro r' rfl
        exact check_fits (by rw [h1]; exact h) hc
    split at h3
    · exact one .nan (fun b => { s1 with maybeNan := b }) (fun _ => h1) h3
    · split at h3
      · exact one .true_ (fun b => { s1 with maybeTrue := b }) (fun _ => h1) h3
      · split at h3
        · exact one .false_ (fun b => { s1 with maybeFalse := b }) (fun _ => h1) h3
        · cases h3
          exact ⟨h1, h2⟩
  by_cases hn : s.maybeNull = true
  · cases hc : checkKeyword P.env .null s.isField s.index x c with
    | error e => simp only [hn, if_true, hc] at hr; cases hr
    | ok p =>
      obtain ⟨b, r2⟩ := p
      simp only [hn, if_true, hc] at hr
      exact key { s with maybeNull := b } r2 rfl (by rintro r' rfl; exact check_fits h hc) hr
  · simp only [hn, if_false] at hr
    exact key s none rfl (by rintro r' ⟨⟩) hr

theorem fits_symbol {f : Bool} {t : Tok} (h : TokOk P x f) :
    Fits P (match x.symbolEvent P.env.depth t with | .error err => .error err | .ok e => .ok { ctx := x, res := .event e }) := by
  split
  · exact fits_error
  · rename_i e he
    exact fits_ok (held_event (symbol_fits h he))

theorem fits_notKeyword {f : Bool} {c : Nat} (h : TokOk P x f) : Fits P (notKeyword P.env f x c) := by
  unfold notKeyword
  split
  · exact fits_ok (h.child.alike (alike_setPending _ _))
  · split
    · exact fits_symbol (t := .text x.value) h
    · exact fits_andGo (makes_unquoted h h.2.2.1)

theorem fits_keyword {s : KwState} {c : Ch} (h : TokOk P x s.isField) : Fits P (onKeyword P.env s x c) := by
  unfold onKeyword
  split
  · exact fits_error
  · rename_i s' tr hc
    obtain ⟨h1, h2⟩ := checks_fit h hc
    split
    · split
      · exact fits_ok (h2 _ rfl)
      · refine fits_ok ?_
        have h3 : TokOk P (x.push c.code) s'.isField := by rw [h1]; exact h.alike (alike_push _ _)
        exact h3
    · exact fits_notKeyword h

theorem fits_notInf {i c : Nat} (h : TokOk P x false) : Fits P (notInf P.env i x c) := by
  unfold notInf
  split
  · exact fits_error
  rename_i y hy
  have h := h.alike (alike_setUnicode hy)
  split
  · exact fits_error
  rename_i hs
  have hs : P.opens.head? = some .sexp := inSexp_iff.1 (by simpa using hs)
  split
  · split
    · exact fits_andGo (makes_operator h)
    · exact fits_symbol (t := .text y.value) h
  · split
    · exact fits_error
    · rename_i e he
      have hv := child_value (P := P) (y := { value := infSuffix.take i }) (by rw [hs]; simp) (by rw [hs]; simp) h.1 rfl rfl
      split
      · exact fits_error
      · rename_i nx h' hu
        have h2 := makes_unquoted (P := P.past) hv (by simp) nx h' hu
        have h3 : ChildOk P.past nx := by
          unfold mkUnquoted at hu
          simp only [Ctx.setUnicode, Bool.false_eq_true, if_false] at hu
          split at hu
          · cases hu; exact hv.child.alike ⟨rfl, rfl⟩
          · split at hu
            · cases hu; exact hv.child.alike ⟨rfl, rfl⟩
            · cases hu
        exact fits_ok ⟨symbol_fits h he, h.1, h3, by rintro _ ⟨⟩; exact h2⟩

theorem fits_inf {n : Bool} {i : Nat} {c : Ch} (h : TokOk P x false) : Fits P (onInf P.env n i x c) := by
  unfold onInf
  dsimp only
  have h := h.alike (alike_setType x (some .float))
  split
  · split
    · exact fits_ok h
    · exact fits_notInf h
  · split
    · exact fits_ok (held_event (event_fits h))
    · exact fits_notInf h

theorem fits_symbolEnd {f : Bool} {c : Nat} {t : Tok} (h : TokOk P x f) : Fits P (symbolEnd P.env c x f t) := by
  unfold symbolEnd
  split
  · exact fits_ok (h.child.alike ⟨rfl, rfl⟩)
  · exact fits_symbol h

theorem fits_unquoted {f : Bool} {p : Nat} {c : Ch} (h : TokOk P x f) : Fits P (onUnquoted P.env f p x c) := by
  unfold onUnquoted
  repeat' split
  · exact fits_ok h
  · exact fits_symbolEnd h
  · exact fits_ok (h.alike (alike_push _ _))
  · exact fits_error

theorem fits_dollar {s : DollarState} {c : Ch} (h : TokOk P x s.isField) : Fits P (onDollar P.env s x c) := by
  unfold onDollar dollarEnd
  dsimp only
  repeat' split
  all_goals first
    | exact fits_error
    | exact fits_symbolEnd h
    | exact fits_andGo (makes_unquoted h h.2.2.1)
    | exact fits_ok (show TokOk P _ s.isField from h)
    | exact fits_ok (show TokOk P (x.push c.code) s.isField from h.alike (alike_push _ _))

theorem fits_short {f cl : Bool} {h' : H} {c : Ch} (h : TokOk P x f) (hx : f = false → cl = false → x.ionType.isSome = true) (hc : cl = true → f = false)
    (hh : ∀ y, Alike x y → y.ionType = x.ionType → HOk P y h') : Fits P (onShort P.env f cl h' x c) := by
  unfold onShort
  split
  · split
    · exact fits_ok (h.child.alike ⟨rfl, rfl⟩)
    · split
      · rename_i hcl
        rw [hc hcl] at h
        exact fits_andGo (makes_clobEnd (h.alike ⟨rfl, rfl⟩))
      · rename_i hf hcl
        have hf : f = false := by simpa using hf
        subst hf
        exact fits_ok (held_event (typed_fits h (hx rfl (by simpa using hcl))))
  · split
    · exact fits_error
    · refine fits_ok (hh _ (alike_extend _ _ _) ?_)
      unfold Ctx.extend
      split <;> rfl

theorem fits_quotedSymbol {f : Bool} {c : Ch} (h : TokOk P x f) : Fits P (onQuotedSymbol P.env f x c) := by
  unfold onQuotedSymbol
  repeat' split
  · exact fits_symbolEnd h
  · exact fits_error
  all_goals exact fits_ok (show TokOk P _ f from h.alike (alike_extend _ _ _))

theorem fits_lobStart {q : Nat} {c : Ch} (h : TokOk P x false) : Fits P (onLobStart q x c) := by
  have hu : ∀ y, (x.setType (some .clob)).setUnicode true = .ok y → TokOk P y false := fun y hy => h.alike ((alike_setType _ _).trans (alike_setUnicode hy))
  unfold onLobStart
  split
  · split
    · exact fits_error
    · exact fits_ok h
  · split
    · split
      · exact fits_error
      · split
        · exact fits_error
        · rename_i y hy
          exact fits_andGo (makes_short (hu y hy))
    · split
      · have key : ∀ r : Except PyErr Ctx, (∀ y, r = .ok y → TokOk P y false) →
            Fits P (match r with | .error err => .error err | .ok x => if q = 2 then andGo (mkLong x false) else .ok { ctx := x, res := .imm (.lobStart (q + 1)) }) := by
          intro r hr
          split
          · exact fits_error
          · split
            · exact fits_andGo (makes_long (hr _ rfl))
            · exact fits_ok (hr _ rfl)
        refine key _ fun y hy => ?_
        split at hy
        · exact hu y hy
        · cases hy; exact h
      · exact fits_andGo (makes_blobEnd h)

theorem fits_blobEnd {p d n : Nat} {c : Ch} (h : TokOk P x false) : Fits P (onBlobEnd P.env p d n x c) := by
  unfold onBlobEnd
  repeat' split
  all_goals first
    | exact fits_error
    | exact fits_ok (held_event (event_fits h))
    | exact fits_ok h
    | skip
  rename_i hy
  exact fits_ok (h.alike (blob_alike hy))

theorem fits_clobEnd {p : Nat} {c : Ch} (h : TokOk P x false) : Fits P (onClobEnd P.env p x c) := by
  unfold onClobEnd
  repeat' split
  all_goals first
    | exact fits_error
    | exact fits_ok (held_event (event_fits h))
    | exact fits_ok h

theorem fits_typedNull {n : NullNode} {c : Ch} (h : TokOk P x false) : Fits P (onTypedNull P.env n x c) := by
  unfold onTypedNull
  repeat' split
  all_goals first
    | exact fits_error
    | exact fits_ok (held_event (event_fits h))
    | exact fits_ok h

theorem quotes_fit {f : Bool} {b : Bool} {g : Ctx → Except PyErr Out} (h : TokOk P x f) (hg : ∀ y, TokOk P y f → Fits P (g y)) :
    Fits P (match x.setUnicode b with | .error err => .error err | .ok x => g x) := by
  split
  · exact fits_error
  · rename_i y hy
    exact hg y (h.alike (alike_setUnicode hy))

/-- Every handler keeps the invariant. -/
theorem handle_fits {h : H} {c : Ch} (hh : HOk P x h) : Fits P (handle F P.env x h c) := by
  cases h with
  | negStart =>
    simp only [handle]
    repeat' split
    · exact fits_andGo (makes_zero hh.1)
    · exact fits_andGo (makes_numeric hh.1 hh.2)
    · exact fits_error
    · exact fits_ok hh.1
  | zeroStart =>
    simp only [handle]
    repeat' split
    · exact fits_endNumber (typed_fits hh.1 hh.2) hh.1.1
    · exact fits_andGo (makes_numeric hh.1 hh.2)
    · exact fits_andGo (makes_numeric hh.1 hh.2)
    · exact fits_andGo (makes_tsZero hh.1)
    · exact fits_andGo (makes_whole hh.1 hh.2)
  | number =>
    simp only [handle]
    repeat' split
    · exact fits_endNumber (typed_fits hh.1 hh.2) hh.1.1
    · exact fits_ok ⟨hh.1.alike (alike_push _ _), hh.2⟩
    · exact fits_andGo (makes_timestamp hh.1)
    · exact fits_andGo (makes_numeric hh.1 hh.2)
    · exact fits_andGo (makes_whole hh.1 hh.2)
  | slashEnd e =>
    simp only [handle]
    split
    · exact fits_error
    · rename_i nx block hc
      have h1 := (child_past P (by rw [hh.2]; simp)).alike (commentStart_alike hc).1
      exact fits_ok ⟨hh.1, hh.2, h1, by rintro _ ⟨⟩; exact h1⟩
  | numeric k p => exact fits_numeric hh.1 hh.2
  | tsZero =>
    simp only [handle]
    repeat' split
    · exact fits_andGo (makes_timestamp hh)
    · exact fits_ok (TokOk.alike hh (alike_push _ _))
    · exact fits_error
  | ts s => exact fits_ts hh.1 hh.2
  | comment ret =>
    simp only [handle]
    split
    · exact fits_error
    · rename_i y b hc
      obtain ⟨h1, h2⟩ := commentStart_alike hc
      have h3 := HOk.alike (x := x) (y := y) h1 h2 _ hh
      refine fits_ok ?_
      cases ret with
      | none => exact h3
      | some h' => exact h3
  | commentBody ret b p => exact fits_comment hh
  | sexpSlash ret e => exact fits_sexpSlash hh
  | long f cl n d fi => exact fits_long hh.1 hh.2.1 hh.2.2
  | longSymbol e =>
    simp only [handle]
    split
    · exact fits_error
    · rename_i nx h' hm
      obtain ⟨h1, h2, h3, h4⟩ := hh
      have hv := child_value (P := P) (y := {}) h3 h4 h2.1 rfl rfl
      have h5 := makes_quotedSymbol (P := P.past) (c := c) hv nx h' hm
      have h6 : h' = .quotedSymbol false := by
        unfold mkQuotedSymbol at hm
        repeat' split at hm
        all_goals first | (cases hm; done) | (cases hm; rfl)
      subst h6
      exact fits_ok ⟨h1, h2.1, TokOk.child h5, by rintro _ ⟨⟩; exact h5⟩
  | typedNull n => exact fits_typedNull hh
  | operatorStart o =>
    simp only [handle]
    split
    · exact fits_error
    · exact fits_andGo (makes_operator hh)
  | operatorAfter o =>
    simp only [handle]
    split
    · exact fits_error
    · split
      · exact fits_error
      · split
        · exact fits_error
        · rename_i e he
          exact fits_thenOperator (symbol_fits hh.1 he) hh.1.1 hh.2
  | keyword s => exact fits_keyword hh
  | inf n i => exact fits_inf hh
  | operator =>
    simp only [handle]
    split
    · exact fits_ok (TokOk.alike hh (alike_push _ _))
    · exact fits_symbol (t := .text x.value) hh
  | unquoted f p => exact fits_unquoted hh
  | dollar s => exact fits_dollar hh
  | shortString => exact fits_short hh.1 (fun _ _ => hh.2) (by simp) fun y h1 h2 => ⟨hh.1.alike h1, by rw [h2]; exact hh.2⟩
  | shortField => exact fits_short hh (by simp) (by simp) fun y h1 h2 => TokOk.alike hh h1
  | shortClob => exact fits_short hh (by simp) (by simp) fun y h1 h2 => TokOk.alike hh h1
  | quotedSymbol f => exact fits_quotedSymbol hh
  | quote1 f =>
    simp only [handle]
    split
    · exact fits_ok (TokOk.alike hh (alike_setType _ _))
    · exact quotes_fit hh fun y hy => fits_andGo (makes_quotedSymbol hy)
  | quote2 f =>
    simp only [handle]
    split
    · exact quotes_fit hh fun y hy => fits_andGo (makes_long hy)
    · exact quotes_fit hh fun y hy => fits_ok (hy.child.alike ((alike_setType _ _).trans (alike_setPending _ _)))
  | structOrLob =>
    simp only [handle]
    repeat' split
    · exact fits_ok hh
    · exact fits_error
    · exact fits_ok ⟨hh, rfl⟩
  | lobStart q => exact fits_lobStart hh
  | blobEnd p d n => exact fits_blobEnd hh
  | clobEnd p => exact fits_clobEnd hh
  | containerStart ty =>
    simp only [handle]
    obtain ⟨h1, h2⟩ := hh
    have h3 := (event_fits (ty := ty) (v := .ok none) h1).1
    refine fits_ok ⟨ty :: P.opens, ?_, .inr ⟨ty, rfl, rfl, rfl⟩⟩
    obtain ⟨h1, h4, _, h5, h6, h7⟩ := h1
    unfold nestText
    simp only [Ctx.event]
    refine if_pos ⟨rfl, ⟨fun h => ?_, fun h => ?_⟩, h2⟩
    · simp only [Option.isSome_map] at h
      refine Classical.byContradiction fun hn => ?_
      rw [h5 hn] at h
      cases h
    · simpa using h7 h h1 h4

/-! ## The container generator -/

/-- The generators of the enclosing containers. -/
def ChainOk : List Frame → Option IonType → List IonType → Prop
  | [], ty, opens => ty = none ∧ opens = []
  | f :: fs, ty, opens => ∃ t os, ty = some t ∧ t.isContainer = true ∧ opens = t :: os ∧ ChainOk fs f.ty os ∧ (f.isField = true → f.ty = some .struct)

theorem ChainOk.head {fs : List Frame} {ty : Option IonType} {opens : List IonType} (h : ChainOk fs ty opens) : opens.head? = ty ∧ opens.length = fs.length := by
  induction fs generalizing ty opens with
  | nil => obtain ⟨rfl, rfl⟩ := h; exact ⟨rfl, rfl⟩
  | cons f fs ih =>
    obtain ⟨t, os, rfl, _, rfl, h, _⟩ := h
    exact ⟨rfl, by simp [(ih h).2]⟩

/-- The invariant of the states; after the start of a container, it is already open. -/
def StOk (opens : List IonType) (s : St) : Prop :=
  match s.pc with
  | .enter ty _ => ∃ os, opens = ty :: os ∧ ty.isContainer = true ∧ ChainOk s.outer s.ty os ∧ (s.isField = true → s.ty = some .struct)
  | pc => ChainOk s.outer s.ty opens ∧ (s.isField = true → s.ty = some .struct) ∧ (s.delim = true → s.ty = some .struct ∨ s.ty = some .list) ∧
    match pc with
    | .token h _ => HOk ⟨opens, s.isField, s.delim⟩ (s.child.getD {}) h
    | .afterEvent _ _ n => ChildOk (Spot.mk opens s.isField s.delim).past (s.child.getD {}) ∧ ∀ h, n = some h → HOk (Spot.mk opens s.isField s.delim).past (s.child.getD {}) h
    | .resumed => s.child = none
    | .hexLoop => True
    | _ => ChildOk ⟨opens, s.isField, s.delim⟩ (s.child.getD {})

/-- An event that is delivered, and the open containers after it. -/
def ActOk (opens : List IonType) : Act → Prop
  | .err _ => True
  | .emit e s => ∃ opens', nestText opens e = some opens' ∧ e.eventType.isStreamSignal = false ∧ StOk opens' s
  | .read _ _ k => ∀ c, ActOk opens (k c)
  | .unread _ a => ActOk opens a
  | .wait a => ActOk opens a
  | .go s => StOk opens s

variable {opens : List IonType} {s : St}

theorem spot_env (h : ChainOk s.outer s.ty opens) {f d : Bool} : s.env = (Spot.mk opens f d).env := by
  obtain ⟨h1, h2⟩ := h.head
  simp only [St.env, Spot.env, h1, h2]

theorem past_delim (h : ChainOk s.outer s.ty opens) {f d : Bool} : (Spot.mk opens f d).past = ⟨opens, f, s.env.isDelimited⟩ := by
  obtain ⟨h1, h2⟩ := h.head
  simp only [Spot.past, Env.isDelimited, St.env, h1, Bool.decide_or]
  congr 1

theorem delim_ty {s : St} : s.env.isDelimited = true → s.ty = some .struct ∨ s.ty = some .list := by
  unfold Env.isDelimited
  intro h
  rw [Bool.or_eq_true] at h
  exact h.imp (fun h => of_decide_eq_true h) fun h => of_decide_eq_true h

/-- Going on at the top of the loop. -/
theorem head_ok {c : Option Nat} (h1 : ChainOk s.outer s.ty opens) (h2 : s.isField = true → s.ty = some .struct) (h3 : s.delim = true → s.ty = some .struct ∨ s.ty = some .list)
    (h4 : ChildOk ⟨opens, s.isField, s.delim⟩ (s.child.getD {})) (hp : s.pc = .head c) : StOk opens s := by
  unfold StOk
  rw [hp]
  exact ⟨h1, h2, h3, h4⟩

theorem onSelf_ok {x : Ctx} {c : Nat} (h1 : ChainOk s.outer s.ty opens) (h2 : s.isField = true → s.ty = some .struct) (h3 : s.delim = true → s.ty = some .struct ∨ s.ty = some .list)
    (h4 : ChildOk ⟨opens, s.isField, s.delim⟩ x) : ActOk opens (onSelf s x c) := by
  have h5 := h4.alike (alike_setType x none)
  unfold onSelf
  dsimp only
  repeat' split
  all_goals first | exact head_ok h1 h2 h3 h5 rfl | exact fun c => head_ok h1 h2 h3 h5 rfl

theorem onRes_ok {x : Ctx} {c : Option Nat} {r : Res} (h1 : ChainOk s.outer s.ty opens) (h2 : s.isField = true → s.ty = some .struct)
    (h3 : s.delim = true → s.ty = some .struct ∨ s.ty = some .list) (h4 : ResOk ⟨opens, s.isField, s.delim⟩ x r) : ActOk opens (onRes s x c r) := by
  unfold onRes
  split
  · rename_i h
    exact ⟨h1, h2, h3, h4⟩
  · exact onSelf_ok h1 h2 h3 h4
  · rename_i e
    split
    · trivial
    · dsimp only
      obtain ⟨opens', h5, h6⟩ := h4
      split
      · rename_i ty het hty
        rcases h6 with ⟨_, h7⟩ | ⟨ty', h7, h8, h9⟩
        · rw [het] at h7; simp at h7
        · rw [hty] at h8
          cases h8
          refine ⟨opens', h5, by rw [h7]; rfl, ?_⟩
          have hc : ty.isContainer = true := by
            simp only [nestText, h7, hty] at h5
            split at h5
            · rename_i h; exact h.2.2
            · cases h5
          exact ⟨opens, h9, hc, h1, h2⟩
      · rename_i hne
        rcases h6 with ⟨h7, h8⟩ | ⟨ty', h7, h8, h9⟩
        · subst h7
          refine ⟨_, h5, by rcases h8 with h8 | h8 <;> rw [h8] <;> rfl, h1, h2, h3, child_past _ ?_, by rintro _ ⟨⟩⟩
          intro hf
          rw [h1.head.1]; exact h2 hf
        · exact absurd h8 (hne _ h7)
  · rename_i e n nx
    obtain ⟨h5, h6, h7, h8⟩ := h4
    exact ⟨opens, h5.1, by rcases h5.2 with h | h <;> rw [h] <;> rfl, h1, h2, h3, h7, h8⟩

theorem onChar_ok {h : H} {c : Option Ch} {x : Ctx} (h1 : ChainOk s.outer s.ty opens) (h2 : s.isField = true → s.ty = some .struct)
    (h3 : s.delim = true → s.ty = some .struct ∨ s.ty = some .list) (h4 : HOk ⟨opens, s.isField, s.delim⟩ x h) : ActOk opens (onChar F s x h c) := by
  unfold onChar
  rw [spot_env h1 (f := s.isField) (d := s.delim)]
  have h5 := handle_fits (F := F) (c := c.getD { code := EOF }) h4
  split
  · trivial
  · rename_i o ho
    dsimp only
    split
    · exact onRes_ok h1 h2 h3 (h5 o ho)
    · exact onRes_ok h1 h2 h3 (h5 o ho)

/-- An action that leads to others. -/
theorem readHex_ok {n acc : Nat} {k : Nat → Act} (h : ∀ c, ActOk opens (k c)) : ActOk opens (readHex n acc k) := by
  induction n generalizing acc with
  | zero => exact h _
  | succ n ih =>
    intro c
    dsimp only
    split
    · exact ih
    · trivial

theorem newline_ok {c : Nat} {b : Bool} {k : Ch → Act} (h : ∀ c, ActOk opens (k c)) : ActOk opens (newline c b k) := by
  unfold newline
  split
  · intro c
    dsimp only
    split
    · exact h _
    · split
      · trivial
      · exact h _
  · exact h _

theorem codePoint_ok {b : Bool} {k : Ch → Act} (hs : StOk opens { s with pc := .hexLoop }) (h : ∀ c, ActOk opens (k c)) : ActOk opens (codePoint b s k) := by
  have hd : ∀ cp long, ActOk opens (decoded cp long s k) := by
    intro cp long
    unfold decoded
    split
    · trivial
    · split
      · trivial
      · split
        · intro c
          dsimp only
          split
          · intro c
            dsimp only
            split
            · split
              · exact hs
              · refine readHex_ok fun low => ?_
                split
                · exact h _
                · trivial
            · trivial
          · split <;> trivial
        · exact h _
  intro c
  dsimp only
  split
  · trivial
  · split
    · intro c
      dsimp only
      split
      · exact h _
      · trivial
    · split
      · intro c
        dsimp only
        split
        · exact readHex_ok fun cp => hd _ _
        · split
          · exact readHex_ok fun cp => hd _ _
          · split
            · exact readHex_ok fun cp => hd _ _
            · split
              · exact h _
              · split
                · exact newline_ok h
                · trivial
      · exact newline_ok h

theorem onToken_ok {h : H} {q : Bool} (hs : StOk opens s) (hp : s.pc = .token h q) : ActOk opens (onToken F s h q) := by
  unfold StOk at hs
  rw [hp] at hs
  obtain ⟨h1, h2, h3, h4⟩ := hs
  have key : ∀ c, ActOk opens (onChar F s (s.child.getD {}) h c) := fun c => onChar_ok h1 h2 h3 h4
  unfold onToken
  dsimp only
  split
  · exact key none
  · exact key none
  · split
    · refine codePoint_ok ⟨h1, h2, h3, trivial⟩ fun c => key _
    · exact fun c => key _

theorem setFieldName_alike {x y : Ctx} (h : x.setFieldName = .ok y) : y.fieldName.isSome = true := by
  unfold Ctx.setFieldName at h
  repeat' split at h
  all_goals cases h
  rfl

theorem setAnnotation_name {x y : Ctx} (h : x.setAnnotation = .ok y) : y.fieldName = x.fieldName := by
  unfold Ctx.setAnnotation at h
  repeat' split at h
  all_goals cases h
  rfl

/-- A pending symbol becomes an event. -/
theorem pending_ok {x : Ctx} {t : Tok} {e : IonEvent} {c : Option Nat} (h1 : ChainOk s.outer s.ty opens) (h2 : s.isField = true → s.ty = some .struct)
    (hx : x.fieldName.isSome = true ↔ opens.head? = some .struct) (he : x.symbolEvent s.outer.length t = .ok e) :
    ActOk opens (.emit e { s with child := none, delim := s.env.isDelimited, pc := .head c }) := by
  rw [← h1.head.2] at he
  have h3 := symbol_named (P := ⟨opens, s.isField, s.delim⟩) (fun v => event_named hx) he
  refine ⟨opens, h3.1, by rcases h3.2 with h | h <;> rw [h] <;> rfl, h1, h2, delim_ty, ?_⟩
  have h4 := child_past ⟨opens, s.isField, s.delim⟩ (by rw [h1.head.1]; exact h2)
  rw [past_delim h1] at h4
  exact h4

theorem onStart_ok {c : Nat} (h1 : ChainOk s.outer s.ty opens) (h2 : s.isField = true → s.ty = some .struct) (h3 : s.delim = true → s.ty = some .struct ∨ s.ty = some .list)
    (h4 : ChildOk ⟨opens, s.isField, s.delim⟩ (s.child.getD {})) : ActOk opens (onStart s c) := by
  have hh := h1.head.1
  unfold onStart
  dsimp only
  split
  · split
    · rename_i hty
      have hf : s.isField = false := by
        rw [Bool.eq_false_iff]
        intro h
        have := (h2 h).symm.trans hty
        simp at this
      have hd : s.delim = false := by
        rw [Bool.eq_false_iff]
        intro h
        rcases h3 h with h | h <;> rw [h] at hty <;> simp at hty
      have ht : TokOk ⟨opens, s.isField, s.delim⟩ (s.child.getD {}) false := ⟨hf, hd, by simp, h4⟩
      split
      · exact ⟨h1, h2, h3, hh.trans hty, ht, by rintro _ ⟨⟩⟩
      · split
        · trivial
        · split
          · trivial
          · rename_i e he
            rw [← h1.head.2] at he
            exact ⟨h1, h2, h3, hh.trans hty, ht, by rintro _ ⟨⟩; exact symbol_fits (P := ⟨opens, s.isField, s.delim⟩) ht he⟩
    · exact ⟨h1, h2, h3, h4⟩
  · split
    · trivial
    · rename_i hd
      have hd : s.delim = false := by simpa using hd
      split
      · rename_i x t hx ht
        have hx : s.child = some x := hx
        have h5 : ChildOk ⟨opens, s.isField, s.delim⟩ x := by simpa [hx] using h4
        split
        · split
          · rename_i hf
            have hf : s.isField = true := hf
            split
            · trivial
            · rename_i y hy
              have h6 := setFieldName_alike hy
              refine head_ok (s := { s with isField := false, canFlush := false, child := some y, pc := .head none }) h1 (by simp) h3 ?_ rfl
              refine ⟨fun hne => absurd (hh.trans (h2 hf)) hne, fun h => ?_, fun _ _ _ => h6⟩
              rcases h with h | h
              · cases h
              · have h : s.delim = true := h
                rw [hd] at h; cases h
          · rename_i hf
            have hf : s.isField = false := by simpa using hf
            intro c
            dsimp only
            split
            · split
              · trivial
              · rename_i y hy
                have h6 := setAnnotation_name hy
                refine head_ok (s := { s with canFlush := false, child := some y, pc := .head none }) h1 h2 h3 ?_ rfl
                refine ⟨fun hne => by rw [← h5.1 hne]; exact h6, fun h => ?_, fun a b d => ?_⟩
                · rcases h with h | h
                  · have h : s.isField = true := h
                    rw [hf] at h; cases h
                  · have h : s.delim = true := h
                    rw [hd] at h; cases h
                · have := h5.2.2 a b d
                  rw [← h6] at this
                  exact this
            · trivial
        · split
          · trivial
          · rename_i hf
            have hf : s.isField = false := by simpa using hf
            split
            · trivial
            · rename_i e he
              exact pending_ok (s := { s with canFlush := false }) h1 h2 (TokOk.named (P := ⟨opens, s.isField, s.delim⟩) ⟨hf, hd, by simp, h5⟩) he
      · have hx : ChildOk ⟨opens, s.isField, s.delim⟩ (if decorated s.child = true then s.child.getD {} else {}) := by
          split
          · exact h4
          · rename_i hdec
            refine h4.alike ?_
            cases hc : s.child with
            | none => exact ⟨rfl, rfl⟩
            | some x =>
              rw [hc] at hdec
              simp only [decorated, Bool.or_eq_true, Bool.not_eq_eq_eq_not, Bool.not_true, not_or, List.isEmpty_eq_false_iff, ne_eq, Classical.not_not, Option.isSome_iff_ne_none] at hdec
              exact ⟨hdec.2.symm, hdec.1.symm⟩
        generalize (if decorated s.child = true then s.child.getD {} else {}) = x at hx
        have key : Makes ⟨opens, s.isField, s.delim⟩ (if s.isField = true then fieldTable s.env c x else valueTable s.env c x) := by
          rw [spot_env h1 (f := s.isField) (d := s.delim)]
          split
          · rename_i hf
            exact makes_field ⟨hf, hd, fun _ => hh.trans (h2 hf), hx⟩
          · rename_i hf
            exact makes_value ⟨by simpa using hf, hd, by simp, hx⟩
        show ActOk opens (match (if s.isField = true then fieldTable s.env c x else valueTable s.env c x) with
          | .error err => .err err
          | .ok (x, h) => .go { s with child := some x, canFlush := !s.isField, pc := .token h (c = 34 || c = 39) })
        split
        · trivial
        · rename_i y h hy
          exact ⟨h1, h2, h3, key y h hy⟩

theorem onClose_ok {c : Nat} (h1 : ChainOk s.outer s.ty opens) (h2 : s.isField = true → s.ty = some .struct) (h3 : s.delim = true → s.ty = some .struct ∨ s.ty = some .list)
    (h4 : ChildOk ⟨opens, s.isField, s.delim⟩ (s.child.getD {})) : ActOk opens (onClose s c) := by
  unfold onClose
  split
  · split
    · trivial
    · split
      · trivial
      · rename_i f fs ho
        rw [ho] at h1
        obtain ⟨t, os, h5, h6, rfl, h7, h8⟩ := h1
        refine ⟨os, ?_, rfl, h7, h8, by simp, rfl⟩
        simp [nestText, h5, h7.head.2]
  · split
    · split
      · trivial
      · rename_i hd
        have hd : s.delim = true := by simpa using hd
        intro c
        refine head_ok (s := { s with isField := decide (s.ty = some .struct), delim := false, pc := .head (some c) }) h1 (by simp) (by simp) ?_ rfl
        obtain ⟨h5, h6⟩ := h4.2.1 (.inr hd)
        refine ⟨fun _ => h5, fun _ => ⟨h5, h6⟩, fun ha hb => ?_⟩
        have ha : opens.head? = some .struct := ha
        rw [h1.head.1] at ha
        simp [ha] at hb
    · exact fun c => head_ok h1 h2 h3 h4 rfl

theorem onHead_ok {c : Option Nat} (h1 : ChainOk s.outer s.ty opens) (h2 : s.isField = true → s.ty = some .struct) (h3 : s.delim = true → s.ty = some .struct ∨ s.ty = some .list)
    (h4 : ChildOk ⟨opens, s.isField, s.delim⟩ (s.child.getD {})) : ActOk opens (onHead s c) := by
  unfold onHead
  split
  · exact fun c => head_ok h1 h2 h3 h4 rfl
  · split
    · split
      · rename_i x t hx ht
        have h5 : ChildOk ⟨opens, s.isField, s.delim⟩ x := by simpa [hx] using h4
        split
        · trivial
        · split
          · trivial
          · rename_i hn
            split
            · trivial
            · rename_i e he
              refine pending_ok h1 h2 ⟨fun h => ?_, fun h => ?_⟩ he
              · refine Classical.byContradiction fun hne => ?_
                rw [h5.1 hne] at h
                cases h
              · rw [Option.isSome_iff_ne_none]
                exact fun hnone => hn ⟨h1.head.1.symm.trans h, hnone⟩
      · exact onClose_ok h1 h2 h3 h4
    · split
      · exact fun c => head_ok h1 h2 h3 h4 rfl
      · exact onStart_ok h1 h2 h3 h4

/-- Every step of the generator keeps the invariant. -/
theorem next_ok (h : StOk opens s) : ActOk opens (next F s) := by
  unfold next
  split
  · rename_i c hp
    unfold StOk at h
    rw [hp] at h
    exact onHead_ok h.1 h.2.1 h.2.2.1 h.2.2.2
  · rename_i h' q hp
    exact onToken_ok h hp
  · rename_i c sd n hp
    unfold StOk at h
    rw [hp] at h
    obtain ⟨h1, h2, h3, h4, h5⟩ := h
    rw [past_delim h1] at h4 h5
    dsimp only
    cases n with
    | none =>
      have key : ∀ c, StOk opens { s with complete := s.outer.isEmpty, canFlush := false, delim := s.env.isDelimited, pc := .head c } := fun c =>
        head_ok (s := { s with complete := s.outer.isEmpty, canFlush := false, delim := s.env.isDelimited, pc := .head c }) h1 h2 delim_ty h4 rfl
      split
      · exact fun c => key (some c)
      · exact key c
    | some h' =>
      split
      · exact fun c => ⟨h1, h2, delim_ty, h5 _ rfl⟩
      · exact ⟨h1, h2, delim_ty, h5 _ rfl⟩
  · rename_i ty c hp
    unfold StOk at h
    rw [hp] at h
    obtain ⟨os, rfl, h1, h2, h3⟩ := h
    refine head_ok (c := c) (s := { outer := ⟨s.ty, s.isField⟩ :: s.outer, ty := some ty, isField := decide (ty = .struct), complete := false, pc := .head c }) ⟨ty, os, rfl, h1, rfl, h2, h3⟩ ?_ (by simp) ?_ rfl
    · intro h; simpa using h
    · refine ⟨fun _ => rfl, fun _ => ⟨rfl, rfl⟩, fun h hf => ?_⟩
      simp only [List.head?_cons, Option.some.injEq] at h
      subst h
      simp at hf
  · rename_i hp
    unfold StOk at h
    rw [hp] at h
    obtain ⟨h1, h2, h3, h4⟩ := h
    intro c
    refine head_ok (s := { s with complete := s.outer.isEmpty, canFlush := false, delim := s.env.isDelimited, pc := .head (some c) }) h1 h2 delim_ty ?_ rfl
    have h5 := child_past ⟨opens, s.isField, s.delim⟩ (by rw [h1.head.1]; exact h2)
    rw [past_delim h1] at h5
    simpa [h4] using h5
  · intro c
    dsimp only
    split
    · exact h
    · trivial

/-! ## Answers -/

/-- What happens next fits. -/
def OutcomeOk (opens : List IonType) : Outcome → Prop
  | .event e s _ => ∃ opens', nestText opens e = some opens' ∧ e.eventType.isStreamSignal = false ∧ StOk opens' s
  | .block _ _ k _ => ∀ c, ActOk opens (k c)
  | .waiting a _ => ActOk opens a
  | .error _ => True

theorem advance_ok {a : Act} {q : BufferQueue Nat} {o : Outcome} (ha : ActOk opens a) (h : advance F a q = some o) : OutcomeOk opens o := by
  refine advance.partial_correctness F (fun a q o => ActOk opens a → OutcomeOk opens o) ?_ a q o h ha
  intro adv ih a q o h ha
  cases a with
  | err e => cases h; trivial
  | emit e s => cases h; exact ha
  | read complete canFlush k =>
    dsimp only at h
    split at h
    · cases h; exact ha
    · split at h
      · cases h; trivial
      · exact ih _ _ _ h (ha _)
  | unread c a =>
    dsimp only at h
    split at h
    · cases h; trivial
    · exact ih _ _ _ h ha
  | wait a =>
    dsimp only at h
    split at h
    · cases h; exact ha
    · cases h; trivial
  | go s => exact ih _ _ _ h (next_ok ha)

/-- The last start or end of a container was a start. -/
def lastOpens (opened : Bool) (e : IonEvent) : Bool :=
  match e.eventType with
  | .containerStart => true
  | .containerEnd => false
  | _ => opened

/-- `depth` is the depth of the innermost container. -/
def DepthOk (opens : List IonType) (depth : Int) : Prop := opens ≠ [] ∧ depth = (opens.length : Int) - 1

/-- The state of the reader between two requests, for a user to whom these containers are open. -/
inductive StatusOk : List IonType → Bool → Status → Prop
  | fresh : StatusOk [] false .fresh
  | paused (opens : List IonType) (opened : Bool) (e : IonEvent) (s : St) (q : BufferQueue Nat) (depth : Int) : e.eventType.isStreamSignal = false → StOk opens s → (opened = true → DepthOk opens depth) →
      StatusOk opens opened (.paused e s q depth)
  | blocked (opens inner : List IonType) (opened : Bool) (complete canFlush : Bool) (k : Nat → Act) (q : BufferQueue Nat) (depth : Int) (skipping : Bool) :
      (∀ c, ActOk (inner ++ opens) (k c)) → (opened = true → DepthOk opens depth) → (skipping = true → opened = true) → (skipping = false → inner = []) →
      StatusOk opens opened (.blocked complete canFlush k q depth skipping)
  | waiting (opens inner : List IonType) (opened : Bool) (a : Act) (q : BufferQueue Nat) (depth : Int) (skipping : Bool) :
      ActOk (inner ++ opens) a → (opened = true → DepthOk opens depth) → (skipping = true → opened = true) → (skipping = false → inner = []) →
      StatusOk opens opened (.waiting a q depth skipping)
  | dead (opens : List IonType) (opened : Bool) : StatusOk opens opened .dead

/-- An answer fits, and so does the state after it. -/
def AnswerOk (opens : List IonType) (opened : Bool) (r : Except PyErr IonEvent × Status) : Prop :=
  ∀ e, r.1 = .ok e → ∃ opens', nestText opens e = some opens' ∧ StatusOk opens' (lastOpens opened e) r.2

theorem nest_start {e : IonEvent} {opens' : List IonType} (h : nestText opens e = some opens') (he : e.eventType = .containerStart) :
    ∃ ty, opens' = ty :: opens ∧ e.depth = some (opens.length : Int) := by
  simp only [nestText, he] at h
  split at h
  · split at h
    · cases h; rename_i h; exact ⟨_, rfl, h.1⟩
    · cases h
  · cases h

theorem nest_end {e : IonEvent} {opens' : List IonType} (h : nestText opens e = some opens') (he : e.eventType = .containerEnd) :
    ∃ ty, opens = ty :: opens' ∧ e.depth = some (opens'.length : Int) := by
  simp only [nestText, he] at h
  split at h
  · split at h
    · cases h; rename_i h; exact ⟨_, rfl, h.2⟩
    · cases h
  · cases h

theorem nest_same {e : IonEvent} {opens' : List IonType} (h : nestText opens e = some opens') (h1 : e.eventType ≠ .containerStart) (h2 : e.eventType ≠ .containerEnd) : opens' = opens := by
  unfold nestText at h
  cases he : e.eventType <;> simp only [he] at h h1 h2 <;> first | exact absurd rfl h1 | exact absurd rfl h2 | skip
  all_goals first
    | (cases h; rfl)
    | (split at h
       · cases h; rfl
       · cases h)

theorem deliver_ok {opened : Bool} {depth : Int} {skipping : Bool} {a : Act} {q : BufferQueue Nat} {inner : List IonType} {r : Except PyErr IonEvent × Status} (ha : ActOk (inner ++ opens) a)
    (hd : opened = true → DepthOk opens depth) (hs : skipping = true → opened = true) (hi : skipping = false → inner = []) (h : deliver F depth skipping a q = some r) : AnswerOk opens opened r := by
  refine deliver.partial_correctness F depth (fun skipping a q r => ∀ inner, ActOk (inner ++ opens) a → (skipping = true → opened = true) →
    (skipping = false → inner = []) → AnswerOk opens opened r) ?_ skipping a q r h inner ha hs hi
  intro del ih skipping a q r h inner ha hs hi
  cases ho : advance F a q with
  | none => rw [ho] at h; cases h
  | some o =>
    rw [ho] at h
    have h1 := advance_ok ha ho
    simp only [Option.bind_eq_bind, Option.bind_some] at h
    cases o with
    | error e => cases h; rintro e ⟨⟩
    | block complete canFlush k q =>
      dsimp only at h
      split at h
      · cases h
      · cases h
        rintro e ⟨⟩
        cases complete with
        | true => exact ⟨opens, rfl, .blocked _ inner _ _ _ _ _ _ _ h1 hd hs hi⟩
        | false => exact ⟨opens, rfl, .blocked _ inner _ _ _ _ _ _ _ h1 hd hs hi⟩
    | waiting a q =>
      dsimp only at h
      split at h
      · cases h
      · cases h
        rintro e ⟨⟩
        exact ⟨opens, rfl, .waiting _ inner _ _ _ _ _ h1 hd hs hi⟩
    | event e s q =>
      obtain ⟨opens', h2, h3, h4⟩ := h1
      dsimp only at h
      cases skipping with
      | true =>
        obtain ⟨hne, hdep⟩ := hd (hs rfl)
        simp only [if_true] at h
        split at h
        · rename_i he
          cases h
          rintro e' ⟨⟩
          obtain ⟨ty, h5, h6⟩ := nest_end h2 he.1
          have hin : inner = [] := by
            cases inner with
            | nil => rfl
            | cons t inner =>
              have h7 := he.2
              have h8 := congrArg List.length h5
              simp only [List.cons_append, List.length_cons, List.length_append] at h8
              rw [h6, hdep] at h7
              simp only [Option.getD_some] at h7
              omega
          subst hin
          refine ⟨opens', h2, ?_⟩
          have : lastOpens opened e = false := by simp [lastOpens, he.1]
          rw [this]
          exact .paused _ _ _ _ _ _ h3 h4 (by simp)
        · rename_i he
          have h5 : ∃ inner', opens' = inner' ++ opens := by
            by_cases hst : e.eventType = .containerStart
            · obtain ⟨ty, h6, _⟩ := nest_start h2 hst
              exact ⟨ty :: inner, h6⟩
            · by_cases hen : e.eventType = .containerEnd
              · obtain ⟨ty, h6, h7⟩ := nest_end h2 hen
                have h8 : ¬ (e.depth.getD 0 ≤ depth) := fun h => he ⟨hen, h⟩
                cases inner with
                | nil =>
                  exfalso
                  have h9 := congrArg List.length h6
                  rw [h7, hdep] at h8
                  simp only [List.nil_append, List.length_cons, Option.getD_some] at h8 h9
                  omega
                | cons t inner =>
                  simp only [List.cons_append, List.cons.injEq] at h6
                  exact ⟨inner, h6.2.symm⟩
              · exact ⟨inner, nest_same h2 hst hen⟩
          obtain ⟨inner', rfl⟩ := h5
          exact ih _ _ _ _ h inner' h4 hs (by simp)
      | false =>
        have hin := hi rfl
        subst hin
        simp only [Bool.false_eq_true, if_false] at h
        split at h
        · rename_i he
          cases h
          rintro e' ⟨⟩
          refine ⟨opens', h2, ?_⟩
          rcases he with he | he
          · obtain ⟨ty, h6, h7⟩ := nest_start h2 he
            refine .paused _ _ _ _ _ _ h3 h4 fun _ => ⟨by simp [h6], ?_⟩
            rw [h7, h6]
            simp
          · have : lastOpens opened e = false := by simp [lastOpens, he]
            rw [this]
            exact .paused _ _ _ _ _ _ h3 h4 (by simp)
        · rename_i he
          rw [not_or] at he
          cases h
          rintro e' ⟨⟩
          have h5 := nest_same h2 he.1 he.2
          subst h5
          refine ⟨_, h2, .paused _ _ _ _ _ _ h3 h4 fun ho => hd ?_⟩
          unfold lastOpens at ho
          split at ho
          · exact absurd (by assumption) he.1
          · cases ho
          · exact ho

theorem diverge_ok {opened : Bool} {r : Option (Except PyErr IonEvent × Status)} (h : ∀ r', r = some r' → AnswerOk opens opened r') : AnswerOk opens opened (orDiverge r) := by
  cases r with
  | none => rintro e ⟨⟩
  | some r => exact h r rfl

/-- Every answer fits. -/
theorem send_ok {units : Bytes → List Nat} {opened : Bool} {st : Status} {cmd : RawReader.Cmd} (h : StatusOk opens opened st) (hs : cmd = .skip → opened = true) :
    AnswerOk opens opened (send F units st cmd) := by
  have bad : ∀ e st, AnswerOk opens opened (.error e, st) := by rintro e st e' ⟨⟩
  have start : StOk [] {} := ⟨⟨rfl, rfl⟩, by simp, by simp, fun _ => rfl, fun _ => ⟨rfl, rfl⟩, by simp⟩
  cases h with
  | fresh =>
    cases cmd with
    | next => exact diverge_ok fun r hr => deliver_ok (inner := []) (a := .go {}) start (by simp) (by simp) (by simp) hr
    | _ => exact bad _ _
  | paused _ _ e s q depth _ h1 h2 =>
    cases cmd with
    | next => exact diverge_ok fun r hr => deliver_ok (inner := []) (a := .go s) h1 h2 (by simp) (by simp) hr
    | data d => exact bad _ _
    | skip =>
      simp only [send]
      split
      · exact bad _ _
      · exact diverge_ok fun r hr => deliver_ok (inner := []) (a := .go s) h1 h2 (fun _ => hs rfl) (by simp) hr
  | blocked _ inner _ complete canFlush k q depth skipping h1 h2 h3 h4 =>
    cases cmd with
    | next =>
      simp only [send]
      split
      · exact bad _ _
      · split
        · exact diverge_ok fun r hr => deliver_ok (inner := inner) (a := .read complete canFlush k) h1 h2 h3 h4 hr
        · exact bad _ _
    | data d =>
      simp only [send]
      split
      · exact bad _ _
      · exact diverge_ok fun r hr => deliver_ok (inner := inner) (a := .read complete canFlush k) h1 h2 h3 h4 hr
    | skip => exact bad _ _
  | waiting _ inner _ a q depth skipping h1 h2 h3 h4 =>
    cases cmd with
    | data d =>
      simp only [send]
      split
      · exact bad _ _
      · exact diverge_ok fun r hr => deliver_ok (inner := inner) h1 h2 h3 h4 hr
    | _ => exact bad _ _
  | dead => exact bad _ _

/-- Whenever `SKIP` is sent, the last start or end of a container that was delivered is a start. -/
def SkipsAfterStart (F : FloatText) (units : Bytes → List Nat) (cmds : List RawReader.Cmd) : Prop :=
  ∀ before after, cmds = before ++ .skip :: after → ((sends F units .fresh before).foldl lastOpens false) = true

theorem sends_fit {units : Bytes → List Nat} (cmds : List RawReader.Cmd) : ∀ {opens : List IonType} {opened : Bool} {st : Status}, StatusOk opens opened st →
    (∀ before after, cmds = before ++ .skip :: after → ((sends F units st before).foldl lastOpens opened) = true) → (nestTextAll opens (sends F units st cmds)).isSome = true := by
  induction cmds with
  | nil => intro opens opened st _ _; rfl
  | cons cmd cmds ih =>
    intro opens opened st h hs
    have h1 := send_ok (F := F) (units := units) (cmd := cmd) h (fun hc => hs [] cmds (by rw [hc]; rfl))
    simp only [sends]
    split
    · rename_i e st' he
      rw [he] at h1
      obtain ⟨opens', h2, h3⟩ := h1 e rfl
      simp only [nestTextAll, h2, Option.bind_some]
      refine ih h3 fun before after hc => ?_
      have := hs (cmd :: before) after (by rw [hc]; rfl)
      simpa only [sends, he, List.foldl_cons] using this
    · rfl

/-- **C51**  Whatever characters the text reader is fed, in whatever pieces, and whatever is requested in any order, the events it delivers are well nested,
provided `SKIP` is not requested after the end of a sibling. -/
theorem C51_text_events_well_nested_partial (F : FloatText) (units : Bytes → List Nat) (cmds : List RawReader.Cmd) (hs : SkipsAfterStart F units cmds) :
    (nestTextAll [] (sends F units .fresh cmds)).isSome = true :=
  sends_fit cmds .fresh hs

/-! ## Examples, and what is missing -/

/-- What a caller sees of an event, apart from values and annotations. -/
def outline (e : IonEvent) : IonEventType × Option IonType × Option Int × Bool := (e.eventType, e.ionType, e.depth, e.fieldName.isSome)

/-- Characters of a byte string. -/
def bytesOf (cs : List Char) : Bytes := cs.map fun c => UInt8.ofNat c.toNat

theorem sends_eval {F : FloatText} {units : Bytes → List Nat} {cmds : List RawReader.Cmd} {m n : Nat} {l : List (Except PyErr IonEvent)}
    (h : callsN F units m n .fresh cmds = some l) : sends F units .fresh cmds = l.filterMap Except.toOption := by
  rw [sends_of_calls, callsN_sound h]

/-- The same for outlines: what `callsN` computes, and what is seen. -/
theorem outline_eval {F : FloatText} {units : Bytes → List Nat} {cmds : List RawReader.Cmd} {l : List (IonEventType × Option IonType × Option Int × Bool)} (m n : Nat)
    (h : (callsN F units m n .fresh cmds).map (fun l => (l.filterMap Except.toOption).map outline) = some l) : (sends F units .fresh cmds).map outline = l := by
  cases hc : callsN F units m n .fresh cmds with
  | none => rw [hc] at h; cases h
  | some l' => rw [hc] at h; rw [sends_eval hc]; simpa using h

/-- `[[1],2]`, with `SKIP` sent after the start of the inner list. -/
def skipInner : List RawReader.Cmd :=
  [.next, .data (bytesOf ['[','[','1',']',',','2',']']), .next, .skip, .next, .next, .next]

theorem skipInner_seen (F : FloatText) : (sends F byteUnits .fresh skipInner).map outline =
    [(.streamEnd, none, none, false), (.containerStart, some .list, some 0, false), (.containerStart, some .list, some 1, false), (.containerEnd, some .list, some 1, false),
     (.scalar, some .int, some 1, false), (.containerEnd, some .list, some 0, false), (.streamEnd, none, none, false)] := by
  refine outline_eval 40 8 ?_
  rfl

theorem lastOpens_outline {es : List IonEvent} : ∀ {b : Bool}, es.foldl lastOpens b = (es.map outline).foldl (fun b o => match o.1 with | .containerStart => true | .containerEnd => false | _ => b) b := by
  induction es with
  | nil => intro b; rfl
  | cons e es ih =>
    intro b
    rw [List.foldl_cons, List.map_cons, List.foldl_cons, ih]
    congr 1


/-- The hypothesis of `C51_text_events_well_nested_partial` is met by a caller that skips. -/
example (F : FloatText) : SkipsAfterStart F byteUnits skipInner := by
  intro before after h
  have hb : before = [.next, .data (bytesOf ['[','[','1',']',',','2',']']), .next] := by
    have hh := h
    unfold skipInner at hh
    match before, hh with
    | [], hh => cases hh
    | [_], hh => cases hh
    | [_, _], hh => cases hh
    | [_, _, _], hh => cases hh; rfl
    | [_, _, _, _], hh => cases hh
    | [_, _, _, _, _], hh => cases hh
    | [_, _, _, _, _, _], hh => cases hh
    | _ :: _ :: _ :: _ :: _ :: _ :: _ :: r, hh => simp at hh
  rw [hb, lastOpens_outline, outline_eval (F := F) (l := [(.streamEnd, none, none, false), (.containerStart, some .list, some 0, false), (.containerStart, some .list, some 1, false)]) 40 8 rfl]
  rfl

/-- ... and by every caller that never skips. -/
example (F : FloatText) (units : Bytes → List Nat) (cmds : List RawReader.Cmd) (h : RawReader.Cmd.skip ∉ cmds) : SkipsAfterStart F units cmds := by
  intro before after hc
  exact absurd (by rw [hc]; simp) h

/-- **C51, what is missing**  A symbol inside a struct may be delivered without a field name: of `{a,b:1}`, which is no Ion text, the reader makes a symbol without a name and
a field. -/
theorem C51_symbol_without_field_name (F : FloatText) : (sends F byteUnits .fresh ([.next, .data (bytesOf ['{','a',',','b',':','1','}'])] ++ List.replicate 5 .next)).map outline =
    [(.streamEnd, none, none, false), (.containerStart, some .struct, some 0, false), (.scalar, some .symbol, some 1, false), (.scalar, some .int, some 1, true),
     (.containerEnd, some .struct, some 0, false), (.streamEnd, none, none, false)] := by
  refine outline_eval 60 8 ?_
  rfl

/-- `[[1],2,[3],4]`, with `SKIP` sent when `2` was delivered. -/
def skipLate : List RawReader.Cmd :=
  [.next, .data (bytesOf ['[','[','1',']',',','2',',','[','3',']',',','4',']']), .next, .next, .next, .next, .skip, .next, .next]

/-- **C51, what is missing**  The hypothesis is needed: of `[[1],2,[3],4]`, a `SKIP` when `2` was delivered should end at the end of the outer list, but it stops at the end of the inner list
`[3]`, whose start is never delivered. -/
theorem C51_skip_after_sibling (F : FloatText) : (sends F byteUnits .fresh skipLate).map outline =
    [(.streamEnd, none, none, false), (.containerStart, some .list, some 0, false), (.containerStart, some .list, some 1, false), (.scalar, some .int, some 2, false),
     (.containerEnd, some .list, some 1, false), (.scalar, some .int, some 1, false), (.containerEnd, some .list, some 1, false), (.scalar, some .int, some 1, false),
     (.containerEnd, some .list, some 0, false)] := by
  refine outline_eval 40 8 ?_
  rfl

/-- ... so the events are not well nested. -/
theorem C51_skip_after_sibling_misplaced (F : FloatText) : (nestTextAll [] (sends F byteUnits .fresh skipLate)).isSome = false := by
  cases h : callsN F byteUnits 40 8 .fresh skipLate with
  | none => have : (callsN F byteUnits 40 8 .fresh skipLate).isSome = true := rfl; rw [h] at this; cases this
  | some l =>
    rw [sends_eval h]
    have : (callsN F byteUnits 40 8 .fresh skipLate).map (fun l => (nestTextAll [] (l.filterMap Except.toOption)).isSome) = some false := rfl
    rw [h] at this
    simpa using this

/-- **C51, what is missing**  A `SKIP` over a list that does not end, here `[1`, is not answered once the caller has said that there is no more data (`.modelFuel` stands for no answer,
see `orDiverge`): the reader goes on asking itself. -/
theorem C51_skip_truncated_diverges (F : FloatText) :
    (calls F byteUnits .fresh [.next, .data (bytesOf ['[','1']), .skip, .next]).map (Except.map outline) =
      [.ok (.streamEnd, none, none, false), .ok (.containerStart, some .list, some 0, false), .ok (.incomplete, none, none, false), .error .modelFuel] := by
  cases h : callsN F byteUnits 40 8 .fresh [.next, .data (bytesOf ['[','1']), .skip, .next] with
  | none => have : (callsN F byteUnits 40 8 .fresh [.next, .data (bytesOf ['[','1']), .skip, .next]).isSome = true := rfl; rw [h] at this; cases this
  | some l =>
    rw [callsN_sound h]
    have : (callsN F byteUnits 40 8 .fresh [.next, .data (bytesOf ['[','1']), .skip, .next]).map (List.map (Except.map outline)) =
      some [.ok (.streamEnd, none, none, false), .ok (.containerStart, some .list, some 0, false), .ok (.incomplete, none, none, false), .error .modelFuel] := rfl
    rw [h] at this
    simpa using this
end Ion.TextReader
