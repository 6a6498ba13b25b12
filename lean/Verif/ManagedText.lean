import Verif.SimpleText
import Verif.TextEval
import Verif.Props.Simple
set_option linter.unusedSimpArgs false
/-!
# The managed reader on top of a reader that is fed with chunks

`filterEvents` says what the managed reader makes of the events of the reader below it, as long as it requests them with
`NEXT` only.
-/
namespace Ion.Simple
open Ion
open Ion.ManagedReader (Event Context Handler thunkEvent react)
open Ion.TextReader (Yields Ends Raises Reading IsSignal)
open Ion.RawReader (Cmd)

/-- The events that the managed reader hands on, and the context and handler at the end; `none` if it raises an exception or
skips a container. -/
def filterEvents (ctx : Context) (h : Option Handler) : List IonEvent → Option (List Event × Context × Option Handler)
  | [] => some ([], ctx, h)
  | e :: es => match react ctx h e with
    | .ok (.give ctx' h') => match filterEvents ctx' h' es with
      | some (out, r) => some (thunkEvent ctx' e :: out, r)
      | none => none
    | .ok (.ask .next ctx' h') => filterEvents ctx' h' es
    | _ => none

theorem filter_append {a b : List IonEvent} : ∀ {ctx : Context} {h : Option Handler} {out : List Event} {ctx' : Context} {h' : Option Handler},
    filterEvents ctx h a = some (out, ctx', h') →
    filterEvents ctx h (a ++ b) = (filterEvents ctx' h' b).map fun p => (out ++ p.1, p.2) := by
  induction a with
  | nil =>
    intro ctx h out ctx' h' hf
    simp only [filterEvents, Option.some.injEq, Prod.mk.injEq] at hf
    obtain ⟨rfl, rfl, rfl⟩ := hf
    simp
  | cons e a ih =>
    intro ctx h out ctx' h' hf
    simp only [List.cons_append, filterEvents] at hf ⊢
    generalize react ctx h e = r at hf ⊢
    cases r with
    | error err => cases hf
    | ok act =>
      cases act with
      | ask cmd c1 h1 =>
        cases cmd with
        | next => exact ih hf
        | skip => cases hf
        | data d => cases hf
      | give c1 h1 =>
        simp only at hf ⊢
        generalize hr : filterEvents c1 h1 a = r at hf
        cases r with
        | none => cases hf
        | some p =>
          obtain ⟨out1, c2, h2⟩ := p
          simp only [Option.some.injEq, Prod.mk.injEq] at hf
          obtain ⟨rfl, rfl, rfl⟩ := hf
          rw [ih hr]
          cases filterEvents c2 h2 b <;> rfl

theorem react_signal {ctx : Context} {h : Option Handler} {e : IonEvent} (he : IsSignal e) : react ctx h e = .ok (.give ctx h) := by
  rcases he with rfl | rfl <;> cases h <;> rfl

section
variable {R : Type} {raw : R → Cmd → Except PyErr IonEvent × R}

/-- From a request to the managed reader to the event that the blocking caller gets. -/
def request (raw : R → Cmd → Except PyErr IonEvent × R) (st : ManagedReader.Status R) (cmd : Cmd) (cs : List Bytes) : Option (Except PyErr Event × Source (ManagedReader.Status R)) :=
  (ManagedReader.send raw st cmd) >>= fun p => awaitEvent (ManagedReader.send raw) p.1 p.2 cs

theorem send_signal {st st1 : R} {cmd : Cmd} {sig : IonEvent} {ctx : Context} {h : Option Handler} (h1 : raw st cmd = (.ok sig, st1)) (hs : IsSignal sig) :
    ManagedReader.send raw (.live st ctx h) cmd = some (.ok (thunkEvent ctx sig), .live st1 ctx h) := by
  rw [ManagedReader.send.eq_def]
  simp only [h1, react_signal hs]

theorem request_feed {st st1 : R} {cmd : Cmd} {sig : IonEvent} {ctx : Context} {h : Option Handler} {d : Bytes} {ds : List Bytes} (h1 : raw st cmd = (.ok sig, st1))
    (hs : IsSignal sig) : request raw (.live st ctx h) cmd (d :: ds) = request raw (.live st1 ctx h) (.data d) ds := by
  unfold request
  rw [send_signal h1 hs]
  simp only [bind, Option.bind_some]
  rw [awaitEvent.eq_def]
  rcases hs with rfl | rfl <;> rfl

theorem request_flush {st st1 : R} {cmd : Cmd} {sig : IonEvent} {ctx : Context} {h : Option Handler} (h1 : raw st cmd = (.ok sig, st1))
    (hi : sig.eventType = .incomplete) (hs : IsSignal sig) : request raw (.live st ctx h) cmd [] = request raw (.live st1 ctx h) .next [] := by
  unfold request
  rw [send_signal h1 hs]
  simp only [bind, Option.bind_some]
  rw [awaitEvent.eq_def]
  rcases hs with rfl | rfl
  · cases hi
  · rfl

theorem request_yields {st st' : R} {cmd : Cmd} {cs cs' : List Bytes} {e : IonEvent} (hy : Yields raw IonEvent.eventType st cmd cs e st' cs')
    {ctx : Context} {h : Option Handler} :
    (∀ ctx' h', react ctx h e = .ok (.give ctx' h') →
      request raw (.live st ctx h) cmd cs = some (.ok (thunkEvent ctx' e), .active (.live st' ctx' h') cs')) ∧
    (∀ ctx' h', react ctx h e = .ok (.ask .next ctx' h') → request raw (.live st ctx h) cmd cs = request raw (.live st' ctx' h') .next cs') ∧
    (∀ err, react ctx h e = .error err → request raw (.live st ctx h) cmd cs = some (.error err, .dead)) := by
  induction hy with
  | @now st cmd cs e st' h1 h2 =>
    refine ⟨?_, ?_, ?_⟩
    · intro ctx' h' hr
      unfold request
      rw [ManagedReader.send.eq_def]
      simp only [h1, hr, bind, Option.bind_some]
      rw [awaitEvent.eq_def]
      have : (thunkEvent ctx' e).eventType.isStreamSignal = false := h2
      simp [this]
    · intro ctx' h' hr
      unfold request
      rw [ManagedReader.send.eq_def]
      simp only [h1, hr]
    · intro err hr
      unfold request
      rw [ManagedReader.send.eq_def]
      simp only [h1, hr, bind, Option.bind_some]
      rw [awaitEvent.eq_def]
  | feed h1 _ hs _ ih => rw [request_feed h1 hs]; exact ih
  | flush h1 hi hs _ ih => rw [request_flush h1 hi hs]; exact ih

theorem request_skips {st st' : R} {cmd : Cmd} {cs cs' : List Bytes} {e : IonEvent} (hy : Yields raw IonEvent.eventType st cmd cs e st' cs')
    {ctx ctx' : Context} {h h' : Option Handler} {cmd' : Cmd} (hr : react ctx h e = .ok (.ask cmd' ctx' h')) : request raw (.live st ctx h) cmd cs = request raw (.live st' ctx' h') cmd' cs' := by
  induction hy with
  | @now st cmd cs e st' h1 h2 =>
    unfold request
    rw [ManagedReader.send.eq_def]
    simp only [h1, hr]
  | feed h1 _ hs _ ih => rw [request_feed h1 hs]; exact ih hr
  | flush h1 hi hs _ ih => rw [request_flush h1 hi hs]; exact ih hr

theorem request_ends {st : R} {cmd : Cmd} {cs : List Bytes} (hy : Ends raw IonEvent.eventType st cmd cs) {ctx : Context} {h : Option Handler} :
    request raw (.live st ctx h) cmd cs = some (.ok streamEnd, .ended) := by
  induction hy with
  | now h1 h2 hs =>
    unfold request
    rw [send_signal h1 hs]
    simp only [bind, Option.bind_some]
    rw [awaitEvent.eq_def]
    rcases hs with rfl | rfl
    · rfl
    · cases h2
  | feed h1 _ hs _ ih => rw [request_feed h1 hs]; exact ih
  | flush h1 hi hs _ ih => rw [request_flush h1 hi hs]; exact ih

theorem request_raises {st : R} {cmd : Cmd} {cs : List Bytes} {err : PyErr} (hy : Raises raw IonEvent.eventType st cmd cs err) {ctx : Context} {h : Option Handler} :
    request raw (.live st ctx h) cmd cs = some (.error err, .dead) := by
  induction hy with
  | now h1 =>
    unfold request
    rw [ManagedReader.send.eq_def]
    simp only [h1, bind, Option.bind_some]
    rw [awaitEvent.eq_def]
  | feed h1 _ hs _ ih => rw [request_feed h1 hs]; exact ih
  | flush h1 hi hs _ ih => rw [request_flush h1 hi hs]; exact ih

/-- What the blocking caller gets last. -/
def lastEvent : Option PyErr → Except PyErr Event × Source (ManagedReader.Status R)
  | none => (.ok streamEnd, .ended)
  | some err => (.error err, .dead)

/-- The managed reader hands on the filtered events. -/
theorem delivers_filtered {st : R} {cs : List Bytes} {es : List IonEvent} {o : Option PyErr} (hr : Reading raw IonEvent.eventType st cs es o) :
    ∀ {ctx : Context} {h : Option Handler} {out : List Event} {ctx' : Context} {h' : Option Handler}, filterEvents ctx h es = some (out, ctx', h') →
    ∃ src2, Delivers (ManagedReader.send raw) (.active (.live st ctx h) cs) out src2 ∧ nextEvent (ManagedReader.send raw) src2 = some (lastEvent o) := by
  induction hr with
  | ended hy =>
    intro ctx h out ctx' h' hf
    simp only [filterEvents, Option.some.injEq, Prod.mk.injEq] at hf
    obtain ⟨rfl, rfl, rfl⟩ := hf
    exact ⟨_, .nil _, request_ends hy⟩
  | raised hy =>
    intro ctx h out ctx' h' hf
    simp only [filterEvents, Option.some.injEq, Prod.mk.injEq] at hf
    obtain ⟨rfl, rfl, rfl⟩ := hf
    exact ⟨_, .nil _, request_raises hy⟩
  | @cons st cs e st1 cs1 es o hy _ ih =>
    intro ctx h out ctx' h' hf
    obtain ⟨hg, ha, -⟩ := request_yields hy (ctx := ctx) (h := h)
    simp only [filterEvents] at hf
    generalize react ctx h e = r at hf hg ha
    cases r with
    | error err => cases hf
    | ok act =>
      cases act with
      | ask cmd c1 h1 =>
        cases cmd with
        | skip => cases hf
        | data d => cases hf
        | next =>
          obtain ⟨src2, k1, k2⟩ := ih hf
          have heq := ha c1 h1 rfl
          cases k1 with
          | nil => exact ⟨_, .nil _, heq.trans k2⟩
          | cons _ src1 _ _ _ k3 k4 => exact ⟨src2, .cons _ _ _ _ _ (heq.trans k3) k4, k2⟩
      | give c1 h1 =>
        simp only at hf
        generalize hr : filterEvents c1 h1 es = r at hf
        cases r with
        | none => cases hf
        | some p =>
          obtain ⟨out1, c2, h2⟩ := p
          simp only [Option.some.injEq, Prod.mk.injEq] at hf
          obtain ⟨rfl, rfl, rfl⟩ := hf
          obtain ⟨src2, k1, k2⟩ := ih hr
          exact ⟨src2, .cons _ _ _ _ _ (hg c1 h1 rfl) k1, k2⟩
end

end Ion.Simple
