import Verif.RawReaderLemmas
set_option linter.unusedSimpArgs false
/-!
# C43 (events are well nested) and C27 (the reader protocol), for every input

Here nothing is assumed about the bytes: they may be malformed, and the caller may send any requests in any order.
-/
namespace Ion.Spec
open Ion

/-- The types of the open containers after an event, given those before; `none` if the event does not fit: values and
container starts have the depth of their place, and a field name exactly inside a struct; a container end has the type of
the innermost container and the depth of its start; version markers and the end of the stream come at the top level. -/
def nest (opens : List IonType) (e : IonEvent) : Option (List IonType) :=
  let placed := e.depth = some (opens.length : Int) ∧ (e.fieldName.isSome = true ↔ opens.head? = some .struct)
  match e.eventType with
  | .scalar => if placed ∧ e.ionType.isSome = true then some opens else none
  | .containerStart => match e.ionType with
    | some ty => if placed ∧ ty.isContainer then some (ty :: opens) else none
    | none => none
  | .containerEnd => match opens with
    | ty :: os => if e.ionType = some ty ∧ e.depth = some (os.length : Int) then some os else none
    | [] => none
  | .versionMarker => if opens = [] ∧ e.depth = some 0 then some opens else none
  | .streamEnd => if opens = [] then some opens else none
  | .incomplete => some opens

/-- A whole sequence of events fits. -/
def nestAll (opens : List IonType) : List IonEvent → Option (List IonType)
  | [] => some opens
  | e :: es => (nest opens e).bind fun o => nestAll o es

end Ion.Spec

namespace Ion.RawReader
open Ion Ion.Spec

/-- Any calls, in any order: the events, until an exception. -/
def sends (st : Status) : List Cmd → List IonEvent
  | [] => []
  | cmd :: cmds => match send st cmd with
    | (.ok e, st') => e :: sends st' cmds
    | (.error _, _) => []

/-- The stack of container handlers for the given open containers. -/
inductive StackOk : List Frame → List IonType → Prop
  | root (first : Bool) : StackOk [⟨none, none, 0, first⟩] []
  | cons (fs : List Frame) (opens : List IonType) (ty : IonType) (limit : Int) (first : Bool) : StackOk fs opens → ty.isContainer →
      StackOk (⟨some ty, some limit, opens.length + 1, first⟩ :: fs) (ty :: opens)

/-- The context of a value at the given place. -/
def CtxOk (opens : List IonType) (ctx : Ctx) : Prop :=
  ctx.depth = opens.length ∧ (ctx.fieldName.isSome = true ↔ opens.head? = some .struct)

/-- The context in which a VarUInt is read. -/
def UseOk (opens : List IonType) (ctx : Ctx) : VarUse → Prop
  | .field => opens.head? = some .struct
  | .length h => CtxOk opens ctx ∧ (∀ ty, h = .container ty → ty.isContainer)
  | _ => CtxOk opens ctx

def TaskOk (opens : List IonType) : Task → Prop
  | .typeOctet ctx _ => CtxOk opens ctx
  | .varByte ctx _ use => UseOk opens ctx use
  | .ivmTail => opens = []
  | .scalarBody ctx _ _ => CtxOk opens ctx
  | .annData ctx _ => CtxOk opens ctx
  | .loop => True

def CtlOk (opens : List IonType) : Ctl → Prop
  | .loop => True
  | .varUInt ctx _ use => UseOk opens ctx use
  | .read _ _ atEnd task => TaskOk opens task ∧ (atEnd = true → opens = [])
  | .resume task => TaskOk opens task

/-- An outcome fits the open containers. -/
inductive OutOk (opens : List IonType) : Outcome → Prop
  | cont (m : Machine) : StackOk m.stack opens → CtlOk opens m.ctl → OutOk opens (.cont m)
  | emit (e : IonEvent) (q : Queue) (stack : List Frame) (opens' : List IonType) : nest opens e = some opens' →
      e.eventType.isStreamSignal = false → StackOk stack opens' → OutOk opens (.emit e q stack)
  | block (atEnd : Bool) (q : Queue) (stack : List Frame) (length : Int) (skip : Bool) (a : Bool) (task : Task) :
      StackOk stack opens → TaskOk opens task → (atEnd = true → opens = []) →
      OutOk opens (.block atEnd ⟨q, stack, .read length skip a task⟩)
  | error (err : PyErr) : OutOk opens (.error err)

variable {opens : List IonType} {stack : List Frame} {q : Queue}

theorem startRead_fits {depth : Nat} {limit : Option Int} {length : Int} {skip atEnd : Bool} {task : Task} (hs : StackOk stack opens)
    (ht : TaskOk opens task) (he : atEnd = true → opens = []) : OutOk opens (startRead q stack depth limit length skip atEnd task) := by
  unfold startRead
  split
  · exact .error _
  · split
    · exact .error _
    · have he' : (atEnd && !(decide (q.size > 0))) = true → opens = [] := by
        intro h; simp only [Bool.and_eq_true] at h; exact he h.1
      simp only []
      split
      · split
        · exact .error _
        · exact .cont _ hs ⟨ht, he'⟩
      · exact .cont _ hs ⟨ht, he'⟩

theorem startType_fits {ctx : Ctx} {ivm top : Bool} (hs : StackOk stack opens) (hc : CtxOk opens ctx) (he : top = true → opens = []) :
    OutOk opens (startType q stack ctx ivm top) := startRead_fits hs hc he

theorem containerValue_fits {f : Frame} {fs : List Frame} {fld : Option SymbolToken} (hs : StackOk (f :: fs) opens)
    (hf : fld.isSome = true ↔ opens.head? = some .struct) : OutOk opens (containerValue q f fs fld) := by
  cases hs with
  | root first => exact startType_fits (.root _) ⟨rfl, hf⟩ (fun _ => rfl)
  | cons _ opens ty limit first hfs hty =>
    exact startType_fits (.cons fs opens ty limit false hfs hty) ⟨rfl, hf⟩ (fun h => by simp at h)

theorem scalarEvent_fits {ctx : Ctx} {ty : IonType} {v : Except PyErr (Option PyVal)} {e : IonEvent} (hc : CtxOk opens ctx)
    (h : scalarEvent ctx q ty v = .ok e) : nest opens e = some opens ∧ e.eventType.isStreamSignal = false := by
  have key : ∀ e' : IonEvent, e'.eventType = .scalar → e'.ionType = some ty → e'.fieldName = ctx.fieldName.map .tok →
      e'.depth = some (ctx.depth : Int) → nest opens e' = some opens ∧ e'.eventType.isStreamSignal = false := by
    intro e' h1 h2 h3 h4
    refine ⟨?_, by rw [h1]; rfl⟩
    unfold nest
    rw [h1]
    simp only
    rw [if_pos]
    rw [h2, h3, h4, hc.1]
    refine ⟨⟨rfl, ?_⟩, rfl⟩
    rw [← hc.2]
    cases ctx.fieldName <;> simp
  unfold scalarEvent at h
  simp only at h
  split at h
  · cases h; exact key _ rfl rfl rfl rfl
  · split at h
    · simp at h
    · split at h
      · simp at h
      · cases h; exact key _ rfl rfl rfl rfl

theorem scalarOut_fits {ctx : Ctx} {ty : IonType} {v : Except PyErr (Option PyVal)} (hs : StackOk stack opens) (hc : CtxOk opens ctx) :
    OutOk opens (match scalarEvent ctx q ty v with | .error err => .error err | .ok e => .emit e q stack) := by
  cases h : scalarEvent ctx q ty v with
  | error err => exact .error _
  | ok e => exact .emit e q stack opens (scalarEvent_fits hc h).1 (scalarEvent_fits hc h).2 hs

theorem finishScalar_fits {ctx : Ctx} {k : ScalarKind} {data : Bytes} (hs : StackOk stack opens) (hc : CtxOk opens ctx) :
    OutOk opens (finishScalar q stack ctx k data) := by
  unfold finishScalar
  split
  · exact .error _
  · exact scalarOut_fits hs hc

theorem containerStart_fits {ctx : Ctx} {ty : IonType} {length : Nat} (hs : StackOk stack opens) (hc : CtxOk opens ctx)
    (hty : ty.isContainer) : OutOk opens (containerStart q stack ctx ty length) := by
  unfold containerStart
  simp only
  split
  · exact .error _
  · refine .emit _ _ _ (ty :: opens) ?_ rfl ?_
    · unfold nest
      simp only
      rw [if_pos]
      rw [hc.1]
      refine ⟨⟨rfl, ?_⟩, hty⟩
      rw [← hc.2]
      cases ctx.fieldName <;> simp
    · rw [hc.1]
      exact .cons stack opens ty _ true hs hty

theorem lengthed_fits {ctx : Ctx} {h : LenHandler} {length : Nat} (hs : StackOk stack opens) (hc : CtxOk opens ctx)
    (hh : ∀ ty, h = .container ty → ty.isContainer) : OutOk opens (lengthed q stack ctx h length) := by
  unfold lengthed
  cases h with
  | nop =>
    simp only
    split
    · exact .error _
    · split
      · exact startRead_fits hs trivial (by simp)
      · exact .cont _ hs trivial
  | scalar k =>
    simp only
    split
    · exact finishScalar_fits hs hc
    · exact startRead_fits hs hc (by simp)
  | container ty => exact containerStart_fits hs hc (hh ty rfl)
  | annotation =>
    simp only
    split
    · exact .error _
    · exact .cont _ hs hc

theorem lenHandler_container {tid ln : Nat} {ty : IonType} (h : lenHandler tid ln = some (.container ty)) : ty.isContainer := by
  unfold lenHandler at h
  split at h <;> (try split at h) <;> simp at h <;> subst h <;> rfl

theorem dispatch_fits (octet : UInt8) : (∀ h n, dispatch octet = .fixed h n → ∀ ty, h = .container ty → ty.isContainer) ∧
    (∀ h, dispatch octet = .variable h → ∀ ty, h = .container ty → ty.isContainer) := by
  unfold dispatch
  simp only
  split
  · simp
  split
  · split <;> simp
  split
  · simp
  split
  · simp
  · rename_i h hl
    split
    · simp
    split
    · refine ⟨?_, by simp⟩
      intro h' n he ty hty
      cases he
      subst hty
      exact lenHandler_container hl
    · refine ⟨by simp, ?_⟩
      intro h' he ty hty
      cases he
      subst hty
      exact lenHandler_container hl

theorem handle_fits {ctx : Ctx} (octet : UInt8) (hs : StackOk stack opens) (hc : CtxOk opens ctx) :
    OutOk opens (handle q stack ctx (dispatch octet)) := by
  obtain ⟨h1, h2⟩ := dispatch_fits octet
  cases hd : dispatch octet with
  | invalid => exact .error _
  | ivm =>
    simp only [handle]
    split
    · exact .error _
    · rename_i h0
      refine startRead_fits hs ?_ (by simp)
      have := hc.1
      exact List.length_eq_zero_iff.1 (by omega)
  | static ty v => exact scalarOut_fits hs hc
  | fixed h n => exact lengthed_fits hs hc (h1 h n hd)
  | «variable» h => exact .cont _ hs ⟨hc, h2 h hd⟩
  | ordered => exact .cont _ hs hc

theorem useVar_fits {ctx : Ctx} {v : Nat} {use : VarUse} (hs : StackOk stack opens) (hu : UseOk opens ctx use) :
    OutOk opens (useVar q stack ctx v use) := by
  cases use with
  | field =>
    cases stack with
    | nil => cases hs
    | cons f fs => exact containerValue_fits hs (by have : opens.head? = some .struct := hu; simpa using this)
  | length h => exact lengthed_fits hs hu.1 hu.2
  | ordered =>
    simp only [useVar]
    split
    · exact .error _
    · exact containerStart_fits hs hu rfl
  | annLength =>
    simp only [useVar]
    split
    · exact .error _
    · exact startRead_fits hs hu (by simp)

theorem resume_fits {task : Task} (hs : StackOk stack opens) (ht : TaskOk opens task) : OutOk opens (resume q stack task) := by
  cases task with
  | typeOctet ctx ivm =>
    simp only [resume]
    split
    · exact .error _
    · split
      · exact .error _
      · exact handle_fits _ hs ht
  | varByte ctx v use =>
    simp only [resume]
    split
    · exact .error _
    · split
      · exact useVar_fits hs ht
      · exact .cont _ hs ht
  | ivmTail =>
    simp only [resume]
    split
    · exact .error _
    · split
      · exact .error _
      · have : opens = [] := ht
        subst this
        exact .emit _ _ _ [] (by decide) rfl hs
  | scalarBody ctx k n =>
    simp only [resume]
    split
    · exact .error _
    · exact finishScalar_fits hs ht
  | annData ctx n =>
    simp only [resume]
    split
    · exact .error _
    · split
      · exact .error _
      · split
        · exact .error _
        · split
          · exact .error _
          · exact startType_fits hs ht (by simp)
  | loop => exact .cont _ hs trivial

theorem containerLoop_fits (hs : StackOk stack opens) : OutOk opens (containerLoop q stack) := by
  cases stack with
  | nil => cases hs
  | cons f fs =>
    unfold containerLoop
    simp only
    cases hs with
    | root first =>
      simp only [reduceCtorEq, if_false]
      exact containerValue_fits (.root _) (by simp)
    | cons _ opens ty limit first hfs hty =>
      split
      · refine .emit _ _ _ opens ?_ rfl hfs
        unfold nest
        simp
      · split
        · rename_i hst
          simp only [Option.some.injEq] at hst
          subst hst
          exact .cont _ (.cons fs opens _ limit first hfs hty) (by simp [CtlOk, UseOk])
        · rename_i hst
          refine containerValue_fits (.cons fs opens _ limit first hfs hty) ?_
          simp only [Option.isSome_none, Bool.false_eq_true, List.head?_cons, false_iff]
          exact hst

theorem micro_fits {m : Machine} (hs : StackOk m.stack opens) (hc : CtlOk opens m.ctl) : OutOk opens (micro m) := by
  obtain ⟨q, stack, ctl⟩ := m
  cases ctl with
  | loop => exact containerLoop_fits hs
  | varUInt ctx v use =>
    simp only [micro]
    split
    · exact startRead_fits hs hc (by simp)
    · exact .cont _ hs hc
  | read length skip atEnd task =>
    simp only [micro]
    split
    · exact .cont _ hs hc.1
    · exact .block atEnd q stack length skip atEnd task hs hc.1 hc.2
  | resume task => exact resume_fits hs hc

theorem runFuel_fits (n : Nat) : ∀ {m : Machine}, StackOk m.stack opens → CtlOk opens m.ctl → OutOk opens (runFuel n m) := by
  induction n with
  | zero => intro m _ _; exact .error _
  | succ n ih =>
    intro m hs hc
    have := micro_fits hs hc
    unfold runFuel
    cases hm : micro m with
    | cont m' => rw [hm] at this; cases this with | cont _ h1 h2 => exact ih h1 h2
    | emit => rw [hm] at this; exact this
    | block => rw [hm] at this; exact this
    | error => rw [hm] at this; exact this

theorem run_fits {m : Machine} (hs : StackOk m.stack opens) (hc : CtlOk opens m.ctl) : OutOk opens (run m) := runFuel_fits _ hs hc

theorem deliver_not_dead (o : Outcome) (e : IonEvent) : deliver o ≠ (.ok e, .dead) := by
  cases o with
  | block b m => simp only [deliver]; split <;> simp
  | _ => simp [deliver]

theorem send_not_dead (st : Status) (cmd : Cmd) (e : IonEvent) : send st cmd ≠ (.ok e, .dead) := by
  cases st with
  | dead => simp [send]
  | fresh q s => cases cmd <;> simp [send]; exact deliver_not_dead _ _
  | waiting q s l k a t =>
    cases cmd <;> simp only [send] <;> try simp
    split
    · simp
    · exact deliver_not_dead _ _
  | ready q s top =>
    cases cmd with
    | next => exact deliver_not_dead _ _
    | data d => simp [send]
    | skip =>
      simp only [send]
      split
      · simp
      split
      · simp
      split
      · simp
      · simp
      · split <;> exact deliver_not_dead _ _

/-- What the caller knows about a reader: the open containers, and whether it wants data. -/
inductive StatusOk : List IonType → Status → Prop
  | fresh (q : Queue) (stack : List Frame) : StackOk stack [] → StatusOk [] (.fresh q stack)
  | ready (opens : List IonType) (q : Queue) (stack : List Frame) : StackOk stack opens →
      StatusOk opens (.ready q stack (decide (opens = [])))
  | waiting (opens : List IonType) (q : Queue) (stack : List Frame) (length : Int) (skip atEnd : Bool) (task : Task) :
      StackOk stack opens → TaskOk opens task → (atEnd = true → opens = []) →
      StatusOk opens (.waiting q stack length skip atEnd task)
  | dead (opens : List IonType) : StatusOk opens .dead

theorem nest_top {e : IonEvent} {opens opens' : List IonType} (h : nest opens e = some opens')
    (hsig : e.eventType.isStreamSignal = false) :
    (decide (e.depth = some 0) && decide (e.eventType ≠ .containerStart)) = decide (opens' = []) := by
  unfold nest at h
  simp only at h
  split at h
  · split at h
    · rename_i h1 h2
      cases h
      rw [h2.1.1, h1]
      cases opens <;> simp; omega
    · simp at h
  · split at h
    · split at h
      · rename_i h1 _ _ _ h2
        cases h
        simp [h1]
      · simp at h
    · simp at h
  · split at h
    · split at h
      · rename_i h1 _ _ _ h2
        cases h
        rw [h2.2, h1]
        cases opens' <;> simp; omega
      · simp at h
    · simp at h
  · split at h
    · rename_i h1 h2
      cases h
      rw [h2.2, h1]
      simp [h2.1]
    · simp at h
  · rename_i h1; rw [h1] at hsig; simp [IonEventType.isStreamSignal] at hsig
  · rename_i h1; rw [h1] at hsig; simp [IonEventType.isStreamSignal] at hsig

theorem deliver_fits {o : Outcome} (h : OutOk opens o) :
    (∃ err, deliver o = (.error err, .dead)) ∨
    (∃ e st opens', deliver o = (.ok e, st) ∧ nest opens e = some opens' ∧ StatusOk opens' st ∧
      (e.eventType.isStreamSignal = true ↔ ∃ q s l k a t, st = .waiting q s l k a t) ∧ (∀ q s, st ≠ .fresh q s)) := by
  cases h with
  | cont m => exact .inl ⟨_, rfl⟩
  | emit e q stack opens' h1 h2 h3 =>
    refine .inr ⟨e, _, opens', rfl, h1, ?_, by simp [h2], by simp⟩
    rw [nest_top h1 h2]
    exact .ready _ _ _ h3
  | block atEnd q stack length skip a task h1 h2 h3 =>
    refine .inr ⟨_, _, opens, rfl, ?_, .waiting _ _ _ _ _ _ _ h1 h2 h3, ?_, by simp⟩
    · cases atEnd with
      | true => have := h3 rfl; subst this; decide
      | false => rfl
    · cases atEnd <;> simp [ION_STREAM_END_EVENT, ION_STREAM_INCOMPLETE_EVENT, IonEventType.isStreamSignal]
  | error err => exact .inl ⟨_, rfl⟩

/-- Every call is refused or leads to an outcome that fits. -/
theorem send_out {st : Status} (h : StatusOk opens st) (cmd : Cmd) :
    (∃ err, send st cmd = (.error err, .dead)) ∨ ∃ o, OutOk opens o ∧ send st cmd = deliver o := by
  cases h with
  | fresh q stack hs =>
    cases cmd with
    | next => exact .inr ⟨_, run_fits (m := ⟨q, stack, .loop⟩) hs trivial, rfl⟩
    | skip => exact .inl ⟨_, rfl⟩
    | data d => exact .inl ⟨_, rfl⟩
  | ready _ q stack hs =>
    cases cmd with
    | next => exact .inr ⟨_, run_fits (m := ⟨q, stack, .loop⟩) hs trivial, rfl⟩
    | data d => exact .inl ⟨_, rfl⟩
    | skip =>
      simp only [send]
      split
      · exact .inl ⟨_, rfl⟩
      · split
        · exact .inl ⟨_, rfl⟩
        · split
          · exact .inl ⟨_, rfl⟩
          · exact .inl ⟨_, rfl⟩
          · rename_i f fs _ rem _
            have := startRead_fits (q := q) (skip := true) (atEnd := false) (task := .loop) (depth := f.depth) (limit := f.limit) (length := rem) hs trivial (by simp)
            split
            · rename_i hm
              rw [hm] at this
              cases this with | cont _ h1 h2 => exact .inr ⟨_, run_fits h1 h2, rfl⟩
            · exact .inr ⟨_, this, rfl⟩
  | waiting _ q stack length skip atEnd task hs ht he =>
    cases cmd with
    | next => exact .inl ⟨_, rfl⟩
    | skip => exact .inl ⟨_, rfl⟩
    | data d =>
      simp only [send]
      split
      · exact .inl ⟨_, rfl⟩
      · refine .inr ⟨_, run_fits (m := ⟨_, stack, .read _ skip _ task⟩) hs ⟨ht, ?_⟩, rfl⟩
        rename_i hd
        intro h
        simp [hd] at h
  | dead => exact .inl ⟨_, rfl⟩

theorem send_fits {st : Status} (h : StatusOk opens st) (cmd : Cmd) :
    (∃ err, send st cmd = (.error err, .dead)) ∨
    (∃ e st' opens', send st cmd = (.ok e, st') ∧ nest opens e = some opens' ∧ StatusOk opens' st' ∧
      (e.eventType.isStreamSignal = true ↔ ∃ q s l k a t, st' = .waiting q s l k a t) ∧ (∀ q s, st' ≠ .fresh q s)) := by
  rcases send_out h cmd with h1 | ⟨o, ho, h1⟩
  · exact .inl h1
  · rw [h1]; exact deliver_fits ho

/-- The stream signals are the two constant events. -/
theorem send_signal {st st' : Status} {e : IonEvent} (h : StatusOk opens st) {cmd : Cmd} (hs : send st cmd = (.ok e, st'))
    (he : e.eventType.isStreamSignal = true) : e = ION_STREAM_END_EVENT ∨ e = ION_STREAM_INCOMPLETE_EVENT := by
  rcases send_out h cmd with ⟨err, h1⟩ | ⟨o, ho, h1⟩
  · rw [h1] at hs; cases hs
  · rw [h1] at hs
    cases ho with
    | cont m => cases hs
    | emit e q stack opens' _ h2 _ => cases hs; rw [h2] at he; cases he
    | block atEnd q stack length skip a task => cases hs; cases atEnd <;> simp
    | error err => cases hs

theorem statusOk_init : StatusOk [] init := .fresh _ _ (.root true)

theorem sends_fits (cmds : List Cmd) : ∀ {st : Status} {opens : List IonType}, StatusOk opens st →
    (nestAll opens (sends st cmds)).isSome = true := by
  induction cmds with
  | nil => intro st opens _; rfl
  | cons cmd cmds ih =>
    intro st opens h
    simp only [sends]
    rcases send_fits h cmd with ⟨err, h1⟩ | ⟨e, st', opens', h1, h2, h3, -⟩
    · rw [h1]; rfl
    · rw [h1]
      simp only [nestAll, h2, Option.bind_some]
      exact ih h3

/-- **C43**  Whatever bytes the binary reader is fed and whatever is requested, in any order, the events it delivers are
well nested. -/
theorem C43_events_well_nested (cmds : List Cmd) : (nestAll [] (sends init cmds)).isSome = true := sends_fits cmds statusOk_init

/-! Non-trivial cases: a list with a struct inside, in two chunks; and a truncated list whose child overruns it. -/
example : sends init [.next, .data [0xE0, 0x01, 0x00, 0xEA, 0xB3], .next, .next, .data [0xD2, 0x84], .next, .data [0x11], .next] =
    [{ eventType := .streamEnd }, { eventType := .versionMarker, depth := some 0 },
     { eventType := .containerStart, ionType := some .list, depth := some 0 }, { eventType := .incomplete },
     { eventType := .containerStart, ionType := some .struct, depth := some 1 }, { eventType := .incomplete },
     { eventType := .scalar, ionType := some .bool, value := .ok (some (.bool true)), fieldName := some (.tok ⟨none, some 4, none⟩), depth := some 2 },
     { eventType := .containerEnd, ionType := some .struct, depth := some 1 }] := by decide +kernel

/-! ## C27 -/

/-- The reader after some calls. -/
def after (st : Status) : List Cmd → Status
  | [] => st
  | cmd :: cmds => after (send st cmd).2 cmds

/-- What is known after calls that were all answered. -/
theorem after_fits (cmds : List Cmd) : ∀ {st : Status} {opens : List IonType}, StatusOk opens st → (sends st cmds).length = cmds.length →
    ∃ opens', nestAll opens (sends st cmds) = some opens' ∧ StatusOk opens' (after st cmds) ∧
    (cmds = [] → after st cmds = st) ∧
    (∀ e, (sends st cmds).getLast? = some e → (e.eventType.isStreamSignal = true ↔ ∃ q s l k a t, after st cmds = .waiting q s l k a t) ∧
      (∀ q s, after st cmds ≠ .fresh q s) ∧ after st cmds ≠ .dead) := by
  induction cmds with
  | nil => intro st opens h _; exact ⟨opens, rfl, h, fun _ => rfl, by simp [sends]⟩
  | cons cmd cmds ih =>
    intro st opens h hl
    rcases send_fits h cmd with ⟨err, h1⟩ | ⟨e, st', opens', h1, h2, h3, h4, h5⟩
    · simp [sends, h1] at hl
    · have hs : sends st (cmd :: cmds) = e :: sends st' cmds := by simp [sends, h1]
      have ha : after st (cmd :: cmds) = after st' cmds := by simp [after, h1]
      rw [hs, ha]
      rw [hs] at hl
      simp only [List.length_cons, Nat.add_right_cancel_iff] at hl
      obtain ⟨o, i1, i2, i3, i4⟩ := ih h3 hl
      refine ⟨o, by simp [nestAll, h2, i1], i2, by simp, ?_⟩
      intro e' he'
      cases cmds with
      | nil =>
        simp only [sends, List.getLast?_singleton, Option.some.injEq] at he'
        subst he'
        refine ⟨h4, h5, ?_⟩
        intro hc
        simp only [after] at hc
        subst hc
        exact absurd h1 (send_not_dead _ _ _)
      | cons c cs =>
        cases hs2 : sends st' (c :: cs) with
        | nil => rw [hs2] at hl; simp at hl
        | cons e2 es2 =>
          rw [hs2, List.getLast?_cons_cons] at he'
          rw [hs2] at i4
          exact i4 e' he'

/-- **C27**  After any calls that were all answered, what the protocol forbids is refused, whatever the input: a first call
other than `NEXT`; a call other than non-empty `DATA` when the last event asked for data; `DATA` when it did not; `SKIP` when
all containers have been left.  After an exception the reader answers nothing. -/
theorem C27_illegal_calls_rejected (cmds : List Cmd) (hans : (sends init cmds).length = cmds.length) (cmd : Cmd) :
    let es := sends init cmds
    let answer := send (after init cmds) cmd
    (cmds = [] → cmd ≠ .next → answer = (.error .typeError, .dead)) ∧
    (∀ e, es.getLast? = some e → e.eventType.isStreamSignal = true →
      (cmd = .next ∨ cmd = .skip → answer = (.error .typeError, .dead)) ∧
      (cmd = .data [] → answer = (.error .valueError, .dead))) ∧
    (∀ e, es.getLast? = some e → e.eventType.isStreamSignal = false →
      ((∃ d, cmd = .data d) → answer = (.error .typeError, .dead)) ∧
      (cmd = .skip → nestAll [] es = some [] → answer = (.error .typeError, .dead))) ∧
    (∀ cmd', send .dead cmd' = (.error .stopIteration, .dead)) := by
  obtain ⟨opens, h1, h2, h3, h4⟩ := after_fits cmds statusOk_init hans
  refine ⟨?_, ?_, ?_, fun _ => rfl⟩
  · intro h0 hne
    rw [h3 h0]
    cases cmd <;> first | rfl | exact absurd rfl hne
  · intro e he hsig
    obtain ⟨q, s, l, k, a, t, hw⟩ := (h4 e he).1.1 hsig
    rw [hw]
    refine ⟨?_, ?_⟩
    · rintro (rfl | rfl) <;> rfl
    · rintro rfl; rfl
  · intro e he hsig
    obtain ⟨g1, g2, g3⟩ := h4 e he
    rw [hsig] at g1
    generalize hst : after init cmds = st at *
    cases h2 with
    | fresh q s _ => exact absurd rfl (g2 q s)
    | dead => exact absurd rfl g3
    | waiting _ q s l k a t =>
      have := g1.2 ⟨_, _, _, _, _, _, rfl⟩
      simp at this
    | ready _ q s hs =>
      refine ⟨?_, ?_⟩
      · rintro ⟨d, rfl⟩; rfl
      · rintro rfl hn
        rw [h1] at hn
        cases hn
        rfl

/-- Non-trivial cases: after a version marker `SKIP` and `DATA` are refused; after `INCOMPLETE` inside a list `NEXT` is. -/
example : send (after init [.next, .data [0xE0, 0x01, 0x00, 0xEA]]) .skip = (.error .typeError, .dead) :=
  ((C27_illegal_calls_rejected _ (by decide +kernel) .skip).2.2.1 _ (by decide +kernel : _ = some { eventType := .versionMarker, depth := some 0 }) rfl).2
    rfl (by decide +kernel)

end Ion.RawReader
