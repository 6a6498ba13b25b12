import Verif.Props.TextNesting
import Verif.Props.Nesting
import Verif.Props.ManagedReading
set_option linter.unusedSimpArgs false
/-!
# The managed reader on top of a reader whose events are well nested

`Nests` says what is needed of the reader below: its events are well nested, and a `SKIP` is answered by the end of a container, possibly after stream signals.  Both the binary
reader and the text reader do that for any input (`binary_nests`, `text_nests`).  The managed reader then knows at any time how many containers of a local symbol table are open.
-/
namespace Ion.Spec
open Ion Ion.ManagedReader

/-- The events of the reader below: `nest` for the binary reader (`strict`), `nestText` for the text reader. -/
def nestRaw (strict : Bool) (opens : List IonType) (e : IonEvent) : Option (List IonType) := if strict then nest opens e else nestText opens e

/-- The types of the open containers after an event of the managed reader, given those before; `none` if the event does not fit.  Values and container starts have the depth of their place,
and a field name exactly inside a struct (a field name that cannot be resolved raises when it is read); a container end has the type of the innermost container and the depth of its start;
version markers do not occur.  If not `strict` (text), a symbol without annotations may come without a field name, and the stream may end within a container. -/
def nestUser (strict : Bool) (opens : List IonType) (e : Event) : Option (List IonType) :=
  let here := e.depth = some (opens.length : Int)
  let named := e.fieldName ≠ .ok none ↔ opens.head? = some .struct
  let bare := strict = false ∧ opens.head? = some .struct ∧ e.fieldName = .ok none ∧ e.ionType = some .symbol ∧ e.annotations = .ok []
  match e.eventType with
  | .scalar => if here ∧ (named ∨ bare) ∧ e.ionType.isSome = true then some opens else none
  | .containerStart => match e.ionType with
    | some ty => if here ∧ named ∧ ty.isContainer then some (ty :: opens) else none
    | none => none
  | .containerEnd => match opens with
    | ty :: os => if e.ionType = some ty ∧ e.depth = some (os.length : Int) then some os else none
    | [] => none
  | .versionMarker => none
  | .streamEnd => if strict = true → opens = [] then some opens else none
  | .incomplete => some opens

/-- A whole sequence of events fits. -/
def nestUserAll (strict : Bool) (opens : List IonType) : List Event → Option (List IonType)
  | [] => some opens
  | e :: es => (nestUser strict opens e).bind fun o => nestUserAll strict o es

/-- The last start or end of a container was a start. -/
def lastStarts (opened : Bool) (t : IonEventType) : Bool :=
  match t with
  | .containerStart => true
  | .containerEnd => false
  | _ => opened

end Ion.Spec

namespace Ion.ManagedReader
open Ion Ion.Spec
open Ion.RawReader (Cmd)

theorem nest_text {opens opens' : List IonType} {e : IonEvent} (h : nest opens e = some opens') : nestText opens e = some opens' := by
  unfold nest at h
  unfold nestText
  cases he : e.eventType <;> simp only [he] at h ⊢
  case scalar =>
    split at h
    · rename_i h1; cases h; rw [if_pos ⟨h1.1.1, .inl h1.1.2, h1.2⟩]
    · cases h
  case containerStart =>
    split at h
    · split at h
      · rename_i hty h1; cases h; simp only [hty]; rw [if_pos ⟨h1.1.1, h1.1.2, h1.2⟩]
      · cases h
    · cases h
  case streamEnd =>
    split at h
    · exact h
    · cases h
  all_goals exact h

theorem raw_text {strict : Bool} {opens opens' : List IonType} {e : IonEvent} (h : nestRaw strict opens e = some opens') : nestText opens e = some opens' := by
  cases strict with
  | true => exact nest_text h
  | false => exact h

theorem field_none {ctx : Context} {f : Option SymArg} : fieldThunk ctx f = .ok none ↔ f = none := by
  cases f with
  | none => simp [fieldThunk]
  | some a => simp only [fieldThunk]; cases ctx.resolve a <;> simp

/-- What the user gets fits as well. -/
theorem nest_user {strict : Bool} {opens opens' : List IonType} {e : IonEvent} (ctx : Context) (h : nestRaw strict opens e = some opens') (hv : e.eventType ≠ .versionMarker) :
    nestUser strict opens (thunkEvent ctx e) = some opens' := by
  have hn : ((thunkEvent ctx e).fieldName ≠ .ok none) ↔ e.fieldName.isSome = true := by
    simp only [thunkEvent, ne_eq, field_none]
    cases e.fieldName <;> simp
  unfold nestUser
  simp only [hn]
  cases strict with
  | true =>
    simp only [nestRaw, if_true] at h
    unfold nest at h
    cases he : e.eventType <;> simp only [he, thunkEvent] at h ⊢
    case scalar =>
      split at h
      · rename_i h1; cases h; rw [if_pos ⟨h1.1.1, .inl h1.1.2, h1.2⟩]
      · cases h
    case containerStart =>
      split at h
      · split at h
        · rename_i hty h1; cases h; simp only [hty]; rw [if_pos ⟨h1.1.1, h1.1.2, h1.2⟩]
        · cases h
      · cases h
    case versionMarker => exact absurd he hv
    case streamEnd => simpa using h
    all_goals exact h
  | false =>
    simp only [nestRaw, Bool.false_eq_true, if_false] at h
    unfold nestText at h
    cases he : e.eventType <;> simp only [he, thunkEvent] at h ⊢
    case scalar =>
      split at h
      · rename_i h1
        cases h
        rw [if_pos]
        refine ⟨h1.1, ?_, h1.2.2⟩
        rcases h1.2.1 with h2 | ⟨h2, h3, h4, h5⟩
        · exact .inl h2
        · exact .inr ⟨trivial, h2, by simp [h3, fieldThunk], h4, by simp [h5, annotationsThunk]⟩
      · cases h
    case containerStart =>
      split at h
      · split at h
        · rename_i hty h1; cases h; simp only [hty]; rw [if_pos h1]
        · cases h
      · cases h
    case versionMarker => exact absurd he hv
    case streamEnd => simpa using h
    all_goals exact h

/-! ## The reader below -/

/-- The reader below delivers events that are well nested.  `Inv opens opened skipping st`: these containers are open, the last start or end was a start, a `SKIP` is being answered. -/
structure Nests {R : Type} (raw : R → Cmd → Except PyErr IonEvent × R) (strict : Bool) (Inv : List IonType → Bool → Bool → R → Prop) : Prop where
  real : ∀ {opens : List IonType} {opened skipping : Bool} {st st' : R} {cmd : Cmd} {e : IonEvent}, Inv opens opened skipping st → (cmd = .skip → strict = true ∨ opened = true) →
    raw st cmd = (.ok e, st') → e.eventType.isStreamSignal = false →
    ∃ opens', nestRaw strict opens e = some opens' ∧ Inv opens' (lastStarts opened e.eventType) false st' ∧ (skipping = true ∨ cmd = .skip → e.eventType = .containerEnd)
  signal : ∀ {opens : List IonType} {opened skipping : Bool} {st st' : R} {cmd : Cmd} {e : IonEvent}, Inv opens opened skipping st → (cmd = .skip → strict = true ∨ opened = true) →
    raw st cmd = (.ok e, st') → e.eventType.isStreamSignal = true →
    nestRaw strict opens e = some opens ∧ e.depth = none ∧ Inv opens opened (skipping || decide (cmd = .skip)) st' ∧ ∀ e2 st2, raw st' .skip ≠ (.ok e2, st2)

/-! ### The text reader -/

section
open Ion.TextReader
variable {F : FloatText} {units : Bytes → List Nat}

/-- A `SKIP` is being answered. -/
def textSkips : TextReader.Status → Prop
  | .blocked _ _ _ _ _ sk => sk = true
  | .waiting _ _ _ sk => sk = true
  | .dead => True
  | _ => False

theorem deliver_skips {depth : Int} {skipping : Bool} {a : Act} {q : BufferQueue Nat} {r : Except PyErr IonEvent × TextReader.Status} (h : deliver F depth skipping a q = some r) :
    ∀ e, r.1 = .ok e → (e.eventType.isStreamSignal = true ∧ e.depth = none ∧ (skipping = true → textSkips r.2) ∧ ∀ e2 st2, TextReader.send F units r.2 .skip ≠ (.ok e2, st2)) ∨
      ((∃ s q d, r.2 = .paused e s q d) ∧ (skipping = true → e.eventType = .containerEnd)) := by
  refine deliver.partial_correctness F depth (fun skipping a q r => ∀ e, r.1 = .ok e →
    (e.eventType.isStreamSignal = true ∧ e.depth = none ∧ (skipping = true → textSkips r.2) ∧ ∀ e2 st2, TextReader.send F units r.2 .skip ≠ (.ok e2, st2)) ∨
      ((∃ s q d, r.2 = .paused e s q d) ∧ (skipping = true → e.eventType = .containerEnd))) ?_ skipping a q r h
  intro del ih skipping a q r h e he
  cases ho : advance F a q with
  | none => rw [ho] at h; cases h
  | some o =>
    rw [ho] at h
    simp only [Option.bind_eq_bind, Option.bind_some] at h
    cases o with
    | error e => cases h; cases he
    | block complete canFlush k q =>
      dsimp only at h
      split at h
      · cases h
      · cases h
        cases he
        refine .inl ⟨by cases complete <;> rfl, by cases complete <;> rfl, id, fun e2 st2 hc => ?_⟩
        simp only [TextReader.send] at hc
        cases hc
    | waiting a q =>
      dsimp only at h
      split at h
      · cases h
      · cases h
        cases he
        refine .inl ⟨rfl, rfl, id, fun e2 st2 hc => ?_⟩
        simp only [TextReader.send] at hc
        cases hc
    | event e1 s q =>
      dsimp only at h
      cases skipping with
      | true =>
        simp only [if_true] at h
        split at h
        · rename_i h1
          cases h; cases he
          exact .inr ⟨⟨_, _, _, rfl⟩, fun _ => h1.1⟩
        · exact ih _ _ _ _ h e he
      | false =>
        simp only [Bool.false_eq_true, if_false] at h
        split at h <;> cases h <;> cases he <;> exact .inr ⟨⟨_, _, _, rfl⟩, by simp⟩

/-- The answer while a `SKIP` is being answered. -/
theorem send_skips {st : TextReader.Status} {cmd : Cmd} {e : IonEvent} {st' : TextReader.Status} (h : TextReader.send F units st cmd = (.ok e, st')) :
    (e.eventType.isStreamSignal = true ∧ e.depth = none ∧ (textSkips st ∨ cmd = .skip → textSkips st') ∧ ∀ e2 st2, TextReader.send F units st' .skip ≠ (.ok e2, st2)) ∨
      ((∃ s q d, st' = .paused e s q d) ∧ (textSkips st ∨ cmd = .skip → e.eventType = .containerEnd)) := by
  have div : ∀ {depth : Int} {skipping : Bool} {a : Act} {q : BufferQueue Nat}, (textSkips st ∨ cmd = .skip → skipping = true) → orDiverge (deliver F depth skipping a q) = (.ok e, st') →
      (e.eventType.isStreamSignal = true ∧ e.depth = none ∧ (textSkips st ∨ cmd = .skip → textSkips st') ∧ ∀ e2 st2, TextReader.send F units st' .skip ≠ (.ok e2, st2)) ∨
      ((∃ s q d, st' = .paused e s q d) ∧ (textSkips st ∨ cmd = .skip → e.eventType = .containerEnd)) := by
    intro depth skipping a q hs hd
    cases hr : deliver F depth skipping a q with
    | none => rw [hr] at hd; cases hd
    | some r =>
      rw [hr] at hd
      simp only [orDiverge, Option.getD_some] at hd
      subst hd
      rcases deliver_skips (units := units) hr e rfl with ⟨h1, h2, h3, h4⟩ | ⟨h0, h1⟩
      · exact .inl ⟨h1, h2, fun h => h3 (hs h), h4⟩
      · exact .inr ⟨h0, fun h => h1 (hs h)⟩
  cases st with
  | dead => cases h
  | fresh =>
    cases cmd with
    | next => exact div (by simp [textSkips]) h
    | skip => cases h
    | data d => cases h
  | paused e1 s q depth =>
    cases cmd with
    | next => exact div (by simp [textSkips]) h
    | data d => cases h
    | skip =>
      simp only [TextReader.send] at h
      split at h
      · cases h
      · exact div (by simp) h
  | blocked complete canFlush k q depth skipping =>
    cases cmd with
    | next =>
      simp only [TextReader.send] at h
      split at h
      · cases h
      · split at h
        · exact div (by simp [textSkips]) h
        · cases h
    | data d =>
      simp only [TextReader.send] at h
      split at h
      · cases h
      · exact div (by simp [textSkips]) h
    | skip => cases h
  | waiting a q depth skipping =>
    cases cmd with
    | next => cases h
    | skip => cases h
    | data d =>
      simp only [TextReader.send] at h
      split at h
      · cases h
      · exact div (by simp [textSkips]) h

theorem lastOpens_eq (opened : Bool) (e : IonEvent) : lastOpens opened e = lastStarts opened e.eventType := rfl

theorem text_nests : Nests (TextReader.send F units) false (fun opens opened skipping st => TextReader.StatusOk opens opened st ∧ (skipping = true → textSkips st)) where
  real := by
    rintro opens opened skipping st st' cmd e ⟨h1, h2⟩ hs hr he
    obtain ⟨opens', h3, h4⟩ := TextReader.send_ok (F := F) (units := units) h1 (fun hc => (hs hc).resolve_left (by simp)) e (by rw [hr])
    rw [hr] at h4
    refine ⟨opens', h3, ⟨by rw [← lastOpens_eq]; exact h4, by simp⟩, fun h => ?_⟩
    rcases send_skips hr with ⟨h5, _⟩ | ⟨_, h5⟩
    · rw [he] at h5; cases h5
    · exact h5 (h.imp h2 id)
  signal := by
    rintro opens opened skipping st st' cmd e ⟨h1, h2⟩ hs hr he
    obtain ⟨opens', h3, h4⟩ := TextReader.send_ok (F := F) (units := units) h1 (fun hc => (hs hc).resolve_left (by simp)) e (by rw [hr])
    rw [hr] at h4
    have hne : e.eventType ≠ .containerStart ∧ e.eventType ≠ .containerEnd := by constructor <;> intro hc <;> rw [hc] at he <;> cases he
    have := nest_same h3 hne.1 hne.2
    subst this
    have hl : lastOpens opened e = opened := by
      unfold lastOpens
      split
      · exact absurd (by assumption) hne.1
      · exact absurd (by assumption) hne.2
      · rfl
    rw [hl] at h4
    rcases send_skips hr with ⟨_, h5, h6, h7⟩ | ⟨⟨s, q, d, rfl⟩, _⟩
    · refine ⟨h3, h5, ⟨h4, fun h => h6 ?_⟩, h7⟩
      simp only [Bool.or_eq_true, decide_eq_true_eq] at h
      exact h.imp h2 id
    · cases h4 with
      | paused _ _ _ _ _ _ h8 => rw [he] at h8; cases h8
end

/-! ### The binary reader -/

section
open Ion.RawReader

/-- A `SKIP` is being answered: the rest of the innermost container is to be read. -/
def binarySkips (st : RawReader.Status) : Prop :=
  ∃ q f stack length atEnd, st = .waiting q (f :: stack) length true atEnd .loop ∧ f.limit = some (q.position + length)

/-- The rest of a container that is to be skipped. -/
theorem run_rest {q : Queue} {f : Frame} {stack : List Frame} {length : Int} {atEnd : Bool} (h : f.limit = some (q.position + if length ≤ 0 then 0 else length)) {e : IonEvent} {st' : RawReader.Status}
    (hr : deliver (run ⟨q, f :: stack, .read length true atEnd .loop⟩) = (.ok e, st')) : (e.eventType.isStreamSignal = true ∧ binarySkips st') ∨ e.eventType = .containerEnd := by
  unfold run at hr
  by_cases hl : length ≤ 0
  · rw [if_pos hl] at h
    simp only [Int.add_zero] at h
    simp only [RawReader.measure] at hr
    rw [show ∀ n, 8 * n + 7 + 1 = (8 * n + 5) + 1 + 1 + 1 by intro n; omega] at hr
    simp only [RawReader.runFuel, RawReader.micro, hl, if_true, RawReader.resume, RawReader.containerLoop, h] at hr
    dsimp only [RawReader.deliver] at hr
    cases hr
    exact .inr rfl
  · rw [if_neg hl] at h
    simp only [RawReader.runFuel, RawReader.micro, hl, if_false] at hr
    dsimp only [RawReader.deliver] at hr
    cases hr
    exact .inl ⟨by cases atEnd <;> rfl, ⟨_, _, _, _, _, rfl, h⟩⟩

theorem skip_position {q q' : Queue} {n m : Int} (h : q.skip n = .ok (m, q')) : q'.position = q.position + (if n ≥ q.size then q.size else n) := by
  unfold BufferQueue.skip at h
  split at h
  · rename_i hn; cases h; simp [hn]
  · rename_i hn
    rw [if_neg hn]
    unfold BufferQueue.read at h
    split at h
    · cases h
    · simp only [bind, Except.bind, pure, Except.pure] at h
      split at h
      · cases h
      · rename_i heq
        cases h
        split at heq
        · cases heq
        · cases heq; rfl

/-- The answer to a `SKIP`, and to data while a `SKIP` is being answered. -/
theorem binary_skip {st st' : RawReader.Status} {cmd : Cmd} {e : IonEvent} (h : RawReader.send st cmd = (.ok e, st')) (hs : binarySkips st ∨ cmd = .skip) :
    (e.eventType.isStreamSignal = true ∧ binarySkips st') ∨ e.eventType = .containerEnd := by
  rcases hs with ⟨q, f, stack, length, atEnd, rfl, hl⟩ | rfl
  · cases cmd with
    | next => cases h
    | skip => cases h
    | data d =>
      simp only [RawReader.send] at h
      split at h
      · cases h
      · refine run_rest ?_ h
        simp only [feed, if_true]
        rw [hl]
        split
        · rename_i h1
          rw [if_pos (by show length - (d.length : Int) ≤ 0; omega)]
          simp only [BufferQueue.extend, Option.some.injEq]
          omega
        · rename_i h1
          simp only [Option.some.injEq]
          split <;> omega
  · cases st with
    | dead => cases h
    | fresh q s => cases h
    | waiting q s l k a t => cases h
    | ready q stack top =>
      simp only [RawReader.send] at h
      split at h
      · cases h
      · split at h
        · cases h
        · split at h
          · cases h
          · cases h
          · rename_i f _ _ rem hrem
            have hlim : f.limit = some (q.position + rem) := by
              unfold remaining at hrem
              split at hrem
              · cases hrem
              · split at hrem
                · rename_i hl; cases hrem; rw [hl]; simp only [Option.some.injEq]; omega
                · cases hrem
            unfold startRead at h
            split at h
            · rename_i heq
              split at heq
              · cases heq
              · split at heq
                · cases heq
                · simp only [if_true] at heq
                  split at heq
                  · cases heq
                  · rename_i hsk
                    cases heq
                    refine run_rest ?_ h
                    rw [hlim, skip_position hsk]
                    simp only [Option.some.injEq]
                    split <;> split <;> split <;> omega
            · rename_i o hne
              split at h
              · cases h
              · split at h
                · cases h
                · simp only [if_true] at h
                  split at h
                  · cases h
                  · cases h

theorem binary_waits {q : Queue} {s : List Frame} {l : Int} {k a : Bool} {t : Task} (e2 : IonEvent) (st2 : RawReader.Status) : RawReader.send (.waiting q s l k a t) .skip ≠ (.ok e2, st2) := by
  intro h; cases h

theorem binary_nests : Nests RawReader.send true (fun opens _ skipping st => RawReader.StatusOk opens st ∧ (skipping = true → binarySkips st)) where
  real := by
    rintro opens opened skipping st st' cmd e ⟨h1, h2⟩ hs hr he
    rcases send_fits h1 cmd with ⟨err, h3⟩ | ⟨e', st'', opens', h3, h4, h5, -⟩
    · rw [h3] at hr; cases hr
    · rw [h3] at hr
      cases hr
      refine ⟨opens', h4, ⟨h5, by simp⟩, fun h => ?_⟩
      rcases binary_skip h3 (h.imp h2 id) with ⟨h6, _⟩ | h6
      · rw [he] at h6; cases h6
      · exact h6
  signal := by
    rintro opens opened skipping st st' cmd e ⟨h1, h2⟩ hs hr he
    have hsig := send_signal h1 hr he
    rcases send_fits h1 cmd with ⟨err, h3⟩ | ⟨e', st'', opens', h3, h4, h5, h6, -⟩
    · rw [h3] at hr; cases hr
    · rw [h3] at hr
      cases hr
      have hne : e.eventType ≠ .containerStart ∧ e.eventType ≠ .containerEnd := by constructor <;> intro hc <;> rw [hc] at he <;> cases he
      have := TextReader.nest_same (nest_text h4) hne.1 hne.2
      subst this
      obtain ⟨q, s, l, k, a, t, rfl⟩ := h6.1 he
      refine ⟨h4, by rcases hsig with rfl | rfl <;> rfl, ⟨h5, fun h => ?_⟩, binary_waits⟩
      simp only [Bool.or_eq_true, decide_eq_true_eq] at h
      rcases binary_skip h3 (h.imp h2 id) with ⟨_, h7⟩ | h7
      · exact h7
      · exact absurd h7 hne.2
end

/-! ## The managed reader -/
end Ion.ManagedReader

namespace Ion.Spec
open Ion Ion.ManagedReader

/-- A value of the system, not of the user, in this symbol context: at the top level, a version marker; the symbol `$ion_1_0` without annotations; or a struct whose first annotation
is `$ion_symbol_table`. -/
def IsSystem (ctx : Context) (e : IonEvent) : Prop :=
  e.depth = some 0 ∧ (e.eventType = .versionMarker ∨
    (e.ionType = some .symbol ∧ e.annotations = [] ∧ ∃ v k, e.value = .ok (some v) ∧ ctx.resolveValue v = .ok k ∧ k.text = some TEXT_ION_1_0) ∨
    (e.eventType = .containerStart ∧ e.ionType = some .struct ∧ ∃ a as k, e.annotations = a :: as ∧ ctx.resolve a = .ok k ∧ k.text = some TEXT_ION_SYMBOL_TABLE))

/-- The end of a container at the top level. -/
def EndsTop (e : IonEvent) : Prop := e.eventType = .containerEnd ∧ e.depth = some 0

/-- `Surfaced below above ctx inTable`: `below` are all events that the reader below has delivered, `above` those that the user has got, `ctx` the symbol context, and `inTable` tells that a
local symbol table is open.  Every event of the user is delivered, once, in order, resolved in the symbol context in force; events of the system are not delivered.  What a local symbol table
means for the symbol context is left open here (see C21). -/
inductive Surfaced (catalog : Catalog) : List IonEvent → List Event → Context → Bool → Prop
  | start : Surfaced catalog [] [] { catalog := catalog } false
  /-- stream signals are always delivered -/
  | signal {below : List IonEvent} {above : List Event} {ctx : Context} {t : Bool} {e : IonEvent} : Surfaced catalog below above ctx t → e.eventType.isStreamSignal = true →
      Surfaced catalog (below ++ [e]) (above ++ [thunkEvent ctx e]) ctx t
  | user {below : List IonEvent} {above : List Event} {ctx : Context} {e : IonEvent} : Surfaced catalog below above ctx false → ¬ IsSystem ctx e →
      Surfaced catalog (below ++ [e]) (above ++ [thunkEvent ctx e]) ctx false
  /-- a version marker resets the context -/
  | marker {below : List IonEvent} {above : List Event} {ctx : Context} {e : IonEvent} : Surfaced catalog below above ctx false → e.eventType = .versionMarker → IsSystem ctx e →
      Surfaced catalog (below ++ [e]) above { catalog := catalog } false
  | symbol {below : List IonEvent} {above : List Event} {ctx : Context} {e : IonEvent} : Surfaced catalog below above ctx false → e.ionType = some .symbol → IsSystem ctx e →
      Surfaced catalog (below ++ [e]) above ctx false
  /-- a local symbol table begins -/
  | table {below : List IonEvent} {above : List Event} {ctx : Context} {e : IonEvent} : Surfaced catalog below above ctx false → e.eventType = .containerStart → IsSystem ctx e →
      Surfaced catalog (below ++ [e]) above ctx true
  | inside {below : List IonEvent} {above : List Event} {ctx : Context} {e : IonEvent} : Surfaced catalog below above ctx true → e.eventType.isStreamSignal = false → ¬ EndsTop e →
      Surfaced catalog (below ++ [e]) above ctx true
  /-- a local symbol table ends, with a new context -/
  | tableEnd {below : List IonEvent} {above : List Event} {ctx ctx' : Context} {e : IonEvent} : Surfaced catalog below above ctx true → EndsTop e → ctx'.catalog = catalog →
      Surfaced catalog (below ++ [e]) above ctx' false

end Ion.Spec

namespace Ion.ManagedReader
open Ion Ion.Spec
open Ion.RawReader (Cmd)

/-- The containers that are open when the handler receives an event. -/
def placeOpens : Place → List IonType
  | .table => [.struct]
  | .symbols => [.list, .struct]
  | .imports => [.list, .struct]
  | .desc _ => [.struct, .list, .struct]

theorem surfaced_catalog {catalog : Catalog} {below : List IonEvent} {above : List Event} {ctx : Context} {t : Bool} (h : Surfaced catalog below above ctx t) : ctx.catalog = catalog := by
  induction h with
  | start => rfl
  | signal _ _ ih => exact ih
  | user _ _ ih => exact ih
  | marker => rfl
  | symbol _ _ _ ih => exact ih
  | table _ _ _ ih => exact ih
  | inside _ _ _ ih => exact ih
  | tableEnd _ _ h => exact h

theorem start_opens {opens opens' : List IonType} {e : IonEvent} (h : nestText opens e = some opens') (he : e.eventType = .containerStart) : ∃ ty, e.ionType = some ty ∧ opens' = ty :: opens ∧ ty.isContainer = true := by
  simp only [nestText, he] at h
  split at h
  · rename_i hty
    split at h
    · rename_i h1; cases h; exact ⟨_, hty, rfl, h1.2.2⟩
    · cases h
  · cases h

theorem nest_containers {opens opens' : List IonType} {e : IonEvent} (h : nestText opens e = some opens') (hc : ∀ t ∈ opens, t.isContainer = true) : ∀ t ∈ opens', t.isContainer = true := by
  by_cases c1 : e.eventType = .containerStart
  · obtain ⟨ty, _, rfl, h2⟩ := start_opens h c1
    intro t ht
    rcases List.mem_cons.1 ht with rfl | ht
    · exact h2
    · exact hc t ht
  · by_cases c2 : e.eventType = .containerEnd
    · obtain ⟨ty, rfl, _⟩ := TextReader.nest_end h c2
      exact fun t ht => hc t (by simp [ht])
    · rw [TextReader.nest_same h c1 c2]; exact hc

/-- One event for the active handler. -/
theorem handle_places {ctx : Context} {h : Handler} {e : IonEvent} {r : Reply} {opens' : List IonType} (hs : h.skipping = false) (hn : nestText (placeOpens h.place) e = some opens')
    (hr : handle ctx h e = .ok r) :
    match r with
    | .ask cmd h' => (h'.skipping = false ∧ cmd = .next ∧ opens' = placeOpens h'.place) ∨ (h'.skipping = true ∧ cmd = .skip ∧ e.eventType = .containerStart ∧ ∃ ty, opens' = ty :: placeOpens h'.place)
    | .done ctx' => opens' = [] ∧ e.eventType = .containerEnd ∧ ctx'.catalog = ctx.catalog := by
  have same : e.eventType ≠ .containerStart → e.eventType ≠ .containerEnd → opens' = placeOpens h.place := TextReader.nest_same hn
  have fin : ∀ {t : IonType} {os : List IonType}, placeOpens h.place = t :: os → e.eventType = .containerEnd → opens' = os := by
    intro t os hp he
    obtain ⟨ty, h1, _⟩ := TextReader.nest_end hn he
    rw [hp] at h1
    exact (List.cons.inj h1).2.symm
  have skip : e.eventType = .containerStart → ∃ ty, opens' = ty :: placeOpens h.place := fun he => let ⟨ty, _, h2, _⟩ := start_opens hn he; ⟨ty, h2⟩
  simp only [handle, hs, Bool.false_eq_true, if_false] at hr
  cases hp : h.place with
  | table =>
    rw [hp] at hr same fin skip
    simp only [onTable] at hr
    split at hr
    · rename_i he
      split at hr
      · cases hr
      · cases hr; exact ⟨fin rfl he, he, rfl⟩
    · rename_i he
      split at hr
      · cases hr
      · split at hr
        · rename_i hst
          obtain ⟨ty, h1, h2, _⟩ := start_opens hn hst
          rw [hp] at h2
          split at hr
          · rename_i hf
            cases hr
            rw [hf.2] at h1; cases h1
            exact .inl ⟨hs, rfl, h2⟩
          · split at hr
            · rename_i hf
              cases hr
              rw [hf.2] at h1; cases h1
              exact .inl ⟨hs, rfl, h2⟩
            · cases hr
              exact .inr ⟨rfl, rfl, hst, by simpa [hp] using skip hst⟩
        · rename_i hst
          have ho := same hst he
          split at hr
          · simp only [inheritTable] at hr
            repeat' split at hr
            all_goals first | cases hr | skip
            all_goals exact .inl ⟨hs, rfl, by simpa [hp] using ho⟩
          · cases hr; exact .inl ⟨hs, rfl, by simpa [hp] using ho⟩
  | symbols =>
    rw [hp] at hr same fin skip
    simp only [onSymbols] at hr
    split at hr
    · rename_i he; cases hr; exact .inl ⟨hs, rfl, fin rfl he⟩
    · rename_i he
      split at hr
      · rename_i hst; cases hr; exact .inr ⟨rfl, rfl, hst, by simpa [hp] using skip hst⟩
      · rename_i hst
        have ho := same hst he
        split at hr
        · split at hr
          · cases hr
          · cases hr; exact .inl ⟨hs, rfl, by simpa [hp] using ho⟩
        · cases hr; exact .inl ⟨hs, rfl, by simpa [hp] using ho⟩
  | imports =>
    rw [hp] at hr same fin skip
    simp only [onImports] at hr
    split at hr
    · rename_i he; cases hr; exact .inl ⟨hs, rfl, fin rfl he⟩
    · rename_i he
      split at hr
      · rename_i hst
        obtain ⟨ty, h1, h2, _⟩ := start_opens hn hst
        rw [hp] at h2
        split at hr
        · rename_i hf
          cases hr
          rw [hf] at h1; cases h1
          exact .inl ⟨hs, rfl, h2⟩
        · cases hr; exact .inr ⟨rfl, rfl, hst, by simpa [hp] using skip hst⟩
      · rename_i hst; cases hr; exact .inl ⟨hs, rfl, by simpa [hp] using same hst he⟩
  | desc d =>
    rw [hp] at hr same fin skip
    simp only [onDesc] at hr
    split at hr
    · rename_i he
      simp only [endDesc] at hr
      split at hr
      · cases hr; exact .inl ⟨hs, rfl, fin rfl he⟩
      · split at hr
        · cases hr
        · cases hr; exact .inl ⟨hs, rfl, fin rfl he⟩
    · rename_i he
      split at hr
      · rename_i hst; cases hr; exact .inr ⟨rfl, rfl, hst, by simpa [hp] using skip hst⟩
      · rename_i hst
        have ho := same hst he
        repeat' split at hr
        all_goals first | cases hr | skip
        exact .inl ⟨hs, rfl, ho⟩

/-- An event that no handler takes. -/
theorem onUser_cases {ctx : Context} {e : IonEvent} {act : Action} (hr : onUser ctx none e = .ok act) :
    (act = .give ctx none ∧ ¬ IsSystem ctx e) ∨ (act = .ask .next { catalog := ctx.catalog } none ∧ e.eventType = .versionMarker ∧ IsSystem ctx e) ∨
      (act = .ask .next ctx none ∧ e.ionType = some .symbol ∧ e.eventType ≠ .versionMarker ∧ IsSystem ctx e) ∨ (act = .ask .next ctx (some {}) ∧ e.eventType = .containerStart ∧ e.ionType = some .struct ∧ IsSystem ctx e) := by
  unfold onUser at hr
  by_cases hd : e.depth = some 0
  · rw [if_pos hd] at hr
    by_cases hv : e.eventType = .versionMarker
    · rw [if_pos hv] at hr
      split at hr
      · cases hr
      · cases hr; exact .inr (.inl ⟨rfl, hv, hd, .inl hv⟩)
    · rw [if_neg hv] at hr
      have hm : ∀ b, isTextMarker ctx e = .ok b → (b = true ↔ (e.ionType = some .symbol ∧ e.annotations = [] ∧ ∃ v k, e.value = .ok (some v) ∧ ctx.resolveValue v = .ok k ∧ k.text = some TEXT_ION_1_0)) := by
        intro b hb
        unfold isTextMarker at hb
        split at hb
        · rename_i h1
          split at hb
          · cases hb
          · rename_i h2; cases hb; simp [h2]
          · rename_i v h2
            split at hb
            · cases hb
            · rename_i k h3
              cases hb
              simp only [decide_eq_true_eq]
              constructor
              · intro h; exact ⟨h1.1, h1.2, v, k, h2, h3, h⟩
              · rintro ⟨_, _, v', k', h4, h5, h6⟩
                rw [h2] at h4; cases h4
                rw [h3] at h5; cases h5
                exact h6
        · rename_i h1; cases hb
          simp only [Bool.false_eq_true, false_iff]
          rintro ⟨h2, h3, _⟩; exact h1 ⟨h2, h3⟩
      have ht : ∀ b, startsTable ctx e = .ok b → (b = true ↔ (e.eventType = .containerStart ∧ e.ionType = some .struct ∧ ∃ a as k, e.annotations = a :: as ∧ ctx.resolve a = .ok k ∧ k.text = some TEXT_ION_SYMBOL_TABLE)) := by
        intro b hb
        unfold startsTable at hb
        split at hb
        · rename_i h1
          cases ha : e.annotations with
          | nil => rw [ha] at hb; cases hb; simp
          | cons a as =>
            rw [ha] at hb
            simp only [Context.hasTableAnnotation] at hb
            split at hb
            · cases hb
            · rename_i k hk
              cases hb
              simp only [decide_eq_true_eq]
              constructor
              · intro h; exact ⟨h1.1, h1.2, a, as, k, rfl, hk, h⟩
              · rintro ⟨_, _, a', as', k', h2, h3, h4⟩
                cases h2
                rw [hk] at h3; cases h3
                exact h4
        · rename_i h1; cases hb
          simp only [Bool.false_eq_true, false_iff]
          rintro ⟨h2, h3, _⟩; exact h1 ⟨h2, h3⟩
      split at hr
      · cases hr
      · rename_i hb
        simp only [Option.isSome_none, Bool.false_eq_true, if_false] at hr
        cases hr
        have h1 := (hm _ hb).1 rfl
        exact .inr (.inr (.inl ⟨rfl, h1.1, hv, hd, .inr (.inl h1)⟩))
      · rename_i hb
        have h1 : ¬ _ := fun h => Bool.false_ne_true ((hm _ hb).2 h)
        split at hr
        · cases hr
        · rename_i hc
          simp only [Option.isSome_none, Bool.false_eq_true, if_false] at hr
          cases hr
          have h2 := (ht _ hc).1 rfl
          exact .inr (.inr (.inr ⟨rfl, h2.1, h2.2.1, hd, .inr (.inr h2)⟩))
        · rename_i hc
          cases hr
          refine .inl ⟨rfl, ?_⟩
          rintro ⟨_, h2 | h2 | h2⟩
          · exact hv h2
          · exact h1 h2
          · exact Bool.false_ne_true ((ht _ hc).2 h2)
  · rw [if_neg hd] at hr
    cases hr
    exact .inl ⟨rfl, fun h => hd h.1⟩

section
variable {R : Type} (raw : R → Cmd → Except PyErr IonEvent × R) (strict : Bool) (Inv : List IonType → Bool → Bool → R → Prop)

/-- The state of the reader between two calls, for a user to whom these containers are open. -/
def StatusOk (opens : List IonType) (opened : Bool) : Status R → Prop
  | .dead => True
  | .live st _ none => (∃ sk, Inv opens opened sk st) ∧ (opened = true → opens ≠ []) ∧ (∀ t ∈ opens, t.isContainer = true)
  | .live st _ (some h) => opens = [] ∧ opened = false ∧ (∀ e2 st2, raw st .skip ≠ (.ok e2, st2)) ∧
    if h.skipping then ∃ ty o, Inv (ty :: placeOpens h.place) o true st else ∃ o, Inv (placeOpens h.place) o false st

/-- The same, when the reader below is to be sent `cmd`. -/
def Before (opens : List IonType) (opened : Bool) (st : R) (cmd : Cmd) : Option Handler → Prop
  | none => (∃ sk, Inv opens opened sk st) ∧ (opened = true → opens ≠ []) ∧ (cmd = .skip → strict = true ∨ opened = true) ∧ (∀ t ∈ opens, t.isContainer = true)
  | some h => opens = [] ∧ opened = false ∧
    if h.skipping then ∃ ty o sk, Inv (ty :: placeOpens h.place) o sk st ∧ (sk = true ∨ cmd = .skip) ∧ (cmd = .skip → o = true) else (∃ o, Inv (placeOpens h.place) o false st) ∧ cmd ≠ .skip

variable {raw strict Inv}

theorem last_signal {b : Bool} {t : IonEventType} (h : t.isStreamSignal = true) : lastStarts b t = b := by
  cases t <;> simp [IonEventType.isStreamSignal] at h <;> rfl

/-- One call. -/
theorem send_nests (N : Nests raw strict Inv) {G : R → List IonEvent → Prop} (hG : ∀ {st st' : R} {cmd : Cmd} {e : IonEvent} {l : List IonEvent}, G st l → raw st cmd = (.ok e, st') → G st' (l ++ [e]))
    {catalog : Catalog} : ∀ {S : Status R} {cmd : Cmd} {r : Except PyErr Event × Status R}, send raw S cmd = some r → ∀ {e : Event} {S' : Status R}, r = (.ok e, S') →
    ∀ {st : R} {ctx : Context} {h : Option Handler}, S = .live st ctx h → ∀ {opens : List IonType} {opened : Bool} {l : List IonEvent} {out : List Event}, Before strict Inv opens opened st cmd h → G st l →
    Surfaced catalog l out ctx h.isSome →
    ∃ opens', nestUser strict opens e = some opens' ∧ StatusOk raw Inv opens' (lastStarts opened e.eventType) S' ∧
      ∃ st' ctx' h' l', S' = .live st' ctx' h' ∧ G st' l' ∧ Surfaced catalog l' (out ++ [e]) ctx' h'.isSome := by
  intro S cmd r h
  refine send.partial_correctness raw (fun S cmd r => ∀ {e : Event} {S' : Status R}, r = (.ok e, S') →
    ∀ {st : R} {ctx : Context} {h : Option Handler}, S = .live st ctx h → ∀ {opens : List IonType} {opened : Bool} {l : List IonEvent} {out : List Event}, Before strict Inv opens opened st cmd h → G st l →
    Surfaced catalog l out ctx h.isSome →
    ∃ opens', nestUser strict opens e = some opens' ∧ StatusOk raw Inv opens' (lastStarts opened e.eventType) S' ∧
      ∃ st' ctx' h' l', S' = .live st' ctx' h' ∧ G st' l' ∧ Surfaced catalog l' (out ++ [e]) ctx' h'.isSome) ?_ S cmd r h
  rintro f ih S cmd r hr e S' rfl st ctx h rfl opens opened l out hb hg hsur
  dsimp only at hr
  cases hraw : raw st cmd with
  | mk a st1 =>
    rw [hraw] at hr
    cases a with
    | error err => cases hr
    | ok x =>
      dsimp only at hr
      have hg1 := hG hg hraw
      by_cases hx : x.eventType.isStreamSignal = true
      · -- a stream signal goes to the user
        have hv : x.eventType ≠ .versionMarker := by intro hc; rw [hc] at hx; cases hx
        have hact : ∀ {os : List IonType} {o sk : Bool}, Inv os o sk st → (cmd = .skip → strict = true ∨ o = true) → react ctx h x = .ok (.give ctx h) := by
          intro os o sk hi hc
          obtain ⟨_, h2, _⟩ := N.signal hi hc hraw hx
          have : onUser ctx h x = .ok (.give ctx h) := by simp [onUser, h2]
          cases h with
          | none => exact this
          | some hd => simp only [react, hx, if_true]; exact this
        cases h with
        | none =>
          obtain ⟨⟨sk, h1⟩, h2, h3, hcs⟩ := hb
          rw [hact h1 h3] at hr
          cases hr
          obtain ⟨g1, g2, g3, g4⟩ := N.signal h1 h3 hraw hx
          refine ⟨opens, nest_user ctx g1 hv, ?_, _, _, _, _, rfl, hg1, .signal hsur hx⟩
          rw [show (thunkEvent ctx x).eventType = x.eventType from rfl, last_signal hx]
          exact ⟨⟨_, g3⟩, h2, hcs⟩
        | some hd =>
          obtain ⟨h1, h2, h3⟩ := hb
          subst h1 h2
          have hend : ∀ {os : List IonType}, nestRaw strict os x = some os → os ≠ [] → nestRaw strict [] x = some [] := by
            intro os h4 h5
            cases strict with
            | false => cases hxt : x.eventType <;> simp [hxt, IonEventType.isStreamSignal] at hx <;> simp [nestRaw, nestText, hxt]
            | true => cases hxt : x.eventType <;> simp [hxt, IonEventType.isStreamSignal] at hx <;> simp [nestRaw, nest, hxt]
          cases hsk : hd.skipping with
          | true =>
            simp only [hsk, if_true] at h3
            obtain ⟨ty, o, sk, h4, h5, h6⟩ := h3
            have hc : cmd = .skip → strict = true ∨ o = true := fun h => .inr (h6 h)
            rw [hact h4 hc] at hr
            cases hr
            obtain ⟨g1, g2, g3, g4⟩ := N.signal h4 hc hraw hx
            refine ⟨[], nest_user ctx (hend g1 (by simp)) hv, ?_, _, _, _, _, rfl, hg1, .signal hsur hx⟩
            rw [show (thunkEvent ctx x).eventType = x.eventType from rfl, last_signal hx]
            refine ⟨rfl, rfl, g4, ?_⟩
            rw [if_pos hsk]
            refine ⟨ty, o, ?_⟩
            have : (sk || decide (cmd = .skip)) = true := by simpa using h5
            rw [this] at g3
            exact g3
          | false =>
            simp only [hsk, Bool.false_eq_true, if_false] at h3
            obtain ⟨⟨o, h4⟩, h5⟩ := h3
            have hc : cmd = .skip → strict = true ∨ o = true := fun h => absurd h h5
            rw [hact h4 hc] at hr
            cases hr
            obtain ⟨g1, g2, g3, g4⟩ := N.signal h4 hc hraw hx
            refine ⟨[], nest_user ctx (hend g1 (by cases hd.place <;> simp [placeOpens])) hv, ?_, _, _, _, _, rfl, hg1, .signal hsur hx⟩
            rw [show (thunkEvent ctx x).eventType = x.eventType from rfl, last_signal hx]
            refine ⟨rfl, rfl, g4, ?_⟩
            rw [hsk]
            simp only [Bool.false_eq_true, if_false]
            refine ⟨o, ?_⟩
            have : (false || decide (cmd = .skip)) = false := by simpa using h5
            rw [this] at g3
            exact g3
      · have hx : x.eventType.isStreamSignal = false := by simpa using hx
        cases h with
        | none =>
          obtain ⟨⟨sk, h1⟩, h2, h3, hcs⟩ := hb
          obtain ⟨opens', g1, g2, g3⟩ := N.real h1 h3 hraw hx
          have gt := raw_text g1
          have hz : react ctx none x = onUser ctx none x := rfl
          rw [hz] at hr
          cases ho : onUser ctx none x with
          | error err => rw [ho] at hr; cases hr
          | ok act =>
            rw [ho] at hr
            have hcat := surfaced_catalog hsur
            rcases onUser_cases ho with ⟨rfl, k1⟩ | ⟨rfl, k1, k2⟩ | ⟨rfl, k1, k0, k2⟩ | ⟨rfl, k1, k3, k2⟩
            · cases hr
              have hv : x.eventType ≠ .versionMarker := by
                intro hc
                refine k1 ⟨?_, .inl hc⟩
                simp only [nestText, hc] at gt
                split at gt
                · rename_i h5; exact h5.2
                · cases gt
              refine ⟨opens', nest_user ctx g1 hv, ⟨⟨_, g2⟩, ?_, nest_containers gt hcs⟩, _, _, _, _, rfl, hg1, .user hsur k1⟩
              intro hl
              rw [show (thunkEvent ctx x).eventType = x.eventType from rfl] at hl
              by_cases c1 : x.eventType = .containerStart
              · obtain ⟨ty, _, h5, _⟩ := start_opens gt c1
                simp [h5]
              · by_cases c2 : x.eventType = .containerEnd
                · rw [c2] at hl; cases hl
                · rw [TextReader.nest_same gt c1 c2]
                  refine h2 ?_
                  unfold lastStarts at hl
                  split at hl
                  · exact absurd (by assumption) c1
                  · cases hl
                  · exact hl
            · -- version marker
              rw [hcat] at hr
              have e1 : opens' = opens := TextReader.nest_same gt (by rw [k1]; decide) (by rw [k1]; decide)
              subst e1
              have e2 : lastStarts opened x.eventType = opened := by rw [k1]; rfl
              rw [e2] at g2
              exact ih _ _ _ hr rfl rfl ⟨⟨_, g2⟩, h2, by simp, hcs⟩ hg1 (.marker hsur k1 k2)
            · -- the symbol `$ion_1_0`
              have hne : x.eventType ≠ .containerStart ∧ x.eventType ≠ .containerEnd := by
                constructor
                · intro hc
                  simp only [nestText, hc, k1] at gt
                  split at gt
                  · rename_i h5; simp [IonType.isContainer] at h5
                  · cases gt
                · intro hc
                  simp only [nestText, hc, k1] at gt
                  split at gt
                  · split at gt
                    · rename_i t os h5
                      have := hcs t (by simp)
                      rw [← Option.some.inj h5.1] at this
                      cases this
                    · cases gt
                  · cases gt
              have e1 : opens' = opens := TextReader.nest_same gt hne.1 hne.2
              subst e1
              have e2 : lastStarts opened x.eventType = opened := by
                unfold lastStarts
                split
                · exact absurd (by assumption) hne.1
                · exact absurd (by assumption) hne.2
                · rfl
              rw [e2] at g2
              exact ih _ _ _ hr rfl rfl ⟨⟨_, g2⟩, h2, by simp, hcs⟩ hg1 (.symbol hsur k1 k2)
            · -- a local symbol table begins
              obtain ⟨ty, h5, h6, _⟩ := start_opens gt k1
              rw [k3] at h5; cases h5
              have e0 : opens = [] := by
                have := (TextReader.nest_start gt k1).choose_spec.2
                rw [k2.1] at this
                cases opens with
                | nil => rfl
                | cons t os => simp only [Option.some.injEq, List.length_cons] at this; omega
              have e2 : opened = false := by
                cases opened with
                | false => rfl
                | true => exact absurd e0 (h2 rfl)
              subst e0 e2 h6
              exact ih _ _ _ hr rfl rfl (h := some {}) ⟨rfl, rfl, by simp only [Bool.false_eq_true, if_false]; exact ⟨⟨_, g2⟩, by simp⟩⟩ hg1 (.table hsur k1 k2)
        | some hd =>
          obtain ⟨h1, h2, h3⟩ := hb
          subst h1 h2
          simp only [react, hx, Bool.false_eq_true, if_false] at hr
          cases hsk : hd.skipping with
          | true =>
            simp only [hsk, if_true] at h3
            obtain ⟨ty, o, sk, h4, h5, h6⟩ := h3
            obtain ⟨opens', g1, g2, g3⟩ := N.real h4 (fun h => .inr (h6 h)) hraw hx
            have he := g3 h5
            obtain ⟨ty', g4, g5⟩ := TextReader.nest_end (raw_text g1) he
            cases g4
            simp only [handle, hsk, if_true] at hr
            refine ih _ _ _ hr rfl rfl ⟨rfl, rfl, ?_⟩ hg1 (.inside hsur hx ?_)
            · simp only [Bool.false_eq_true, if_false]
              exact ⟨⟨_, g2⟩, by simp⟩
            · rintro ⟨_, h7⟩
              rw [h7] at g5
              have : (placeOpens hd.place).length ≠ 0 := by cases hd.place <;> simp [placeOpens]
              simp only [Option.some.injEq] at g5
              omega
          | false =>
            simp only [hsk, Bool.false_eq_true, if_false] at h3
            obtain ⟨⟨o, h4⟩, h5⟩ := h3
            obtain ⟨opens', g1, g2, g3⟩ := N.real h4 (fun h => absurd h h5) hraw hx
            have gt := raw_text g1
            cases hh : handle ctx hd x with
            | error err => rw [hh] at hr; cases hr
            | ok rep =>
              rw [hh] at hr
              have hp := handle_places hsk gt hh
              have inside : opens' ≠ [] → ¬ EndsTop x := by
                rintro hne ⟨h6, h7⟩
                obtain ⟨_, _, h8⟩ := TextReader.nest_end gt h6
                rw [h7] at h8
                cases opens' with
                | nil => exact hne rfl
                | cons t os => simp only [Option.some.injEq, List.length_cons] at h8; omega
              cases rep with
              | ask cmd1 hd1 =>
                dsimp only at hp hr
                rcases hp with ⟨p1, p2, p3⟩ | ⟨p1, p2, p3, ty, p4⟩
                · subst p2 p3
                  refine ih _ _ _ hr rfl rfl ⟨rfl, rfl, ?_⟩ hg1 (.inside hsur hx (inside (by cases hd1.place <;> simp [placeOpens])))
                  rw [p1]
                  simp only [Bool.false_eq_true, if_false]
                  exact ⟨⟨_, g2⟩, by simp⟩
                · subst p2 p4
                  refine ih _ _ _ hr rfl rfl ⟨rfl, rfl, ?_⟩ hg1 (.inside hsur hx (inside (by simp)))
                  rw [if_pos p1]
                  exact ⟨ty, _, _, g2, .inr rfl, fun _ => by rw [p3]; rfl⟩
              | done ctx1 =>
                dsimp only at hp hr
                obtain ⟨rfl, p2, p3⟩ := hp
                obtain ⟨_, _, h8⟩ := TextReader.nest_end gt p2
                have e2 : lastStarts o x.eventType = false := by rw [p2]; rfl
                rw [e2] at g2
                exact ih _ _ _ hr rfl rfl (h := none) ⟨⟨_, g2⟩, by simp, by simp, by simp⟩ hg1 (.tableEnd hsur ⟨p2, h8⟩ (by rw [p3, surfaced_catalog hsur]))

end
end Ion.ManagedReader
