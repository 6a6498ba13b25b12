import Verif.Events
set_option linter.unusedSimpArgs false
/-!
# Property C28: the writer protocol

The theorems hold for every writer co-routine that is driven by the trampoline, whatever its step function `step` is: the
raw binary writer, the symbol table writer, the managed binary writer, the text writers.
-/
namespace Ion.Trampoline
open Ion

variable {S : Type}

/-- A history of `send`s: what each returned or raised, and the state after the last. -/
def sends (step : S → IonEvent → WriterStep S) (st : TrampolineState S) :
    List (Option IonEvent) → List (Except PyErr DataEvent) × TrampolineState S
  | [] => ([], st)
  | ev :: evs =>
    let r := send step st ev
    let rs := sends step r.2 evs
    (r.1 :: rs.1, rs.2)

theorem sends_append (step : S → IonEvent → WriterStep S) (st : TrampolineState S) (a b : List (Option IonEvent)) :
    sends step st (a ++ b) = ((sends step st a).1 ++ (sends step (sends step st a).2 b).1, (sends step (sends step st a).2 b).2) := by
  induction a generalizing st with
  | nil => simp [sends]
  | cons e a ih => simp [sends, ih]

/-- The state matches the last answer. -/
def Matches : Option (Except PyErr DataEvent) → TrampolineState S → Prop
  | none, .fresh _ => True
  | some (.ok (.hasPending, _)), .pending _ _ => True
  | some (.ok (.needsInput, _)), .ready _ => True
  | some (.ok (.complete, _)), .ready _ => True
  | some (.error _), .dead => True
  | _, _ => False

/-- The step function of a writer never ends a step with `HAS_PENDING` (the outcome is what follows the last chunk). -/
def Settles (step : S → IonEvent → WriterStep S) : Prop :=
  ∀ s e t s', (step s e).2 = .ok (t, s') → t ≠ .hasPending

theorem matches_advance {cs : List Bytes} {out : Except PyErr (WriteEventType × S)}
    (h : ∀ t s', out = .ok (t, s') → t ≠ .hasPending) :
    Matches (some (advance cs out).1) (advance cs out).2 := by
  cases cs with
  | cons c cs => trivial
  | nil =>
    cases out with
    | error e => trivial
    | ok p =>
      obtain ⟨t, s⟩ := p
      have := h t s rfl
      cases t <;> simp_all [advance, Matches]

/-- Pending states hold outcomes of steps. -/
def Good (st : TrampolineState S) : Prop :=
  match st with
  | .pending _ out => ∀ t s', out = .ok (t, s') → t ≠ .hasPending
  | _ => True

theorem good_advance {cs : List Bytes} {out : Except PyErr (WriteEventType × S)}
    (h : ∀ t s', out = .ok (t, s') → t ≠ .hasPending) : Good (advance cs out).2 := by
  cases cs with
  | cons c cs => exact h
  | nil => cases out <;> trivial

theorem matches_send {step : S → IonEvent → WriterStep S} (hset : Settles step) (st : TrampolineState S) (hg : Good st)
    (ev : Option IonEvent) : Matches (some (send step st ev).1) (send step st ev).2 ∧ Good (send step st ev).2 := by
  cases st with
  | fresh s =>
    cases ev with
    | none => exact ⟨trivial, trivial⟩
    | some e => exact ⟨matches_advance (hset s e), good_advance (hset s e)⟩
  | ready s =>
    cases ev with
    | none => exact ⟨trivial, trivial⟩
    | some e =>
      simp only [send]
      split
      · exact ⟨trivial, trivial⟩
      · exact ⟨matches_advance (hset s e), good_advance (hset s e)⟩
  | pending cs out =>
    cases ev with
    | none => exact ⟨matches_advance hg, good_advance hg⟩
    | some e => exact ⟨trivial, trivial⟩
  | dead => cases ev <;> exact ⟨trivial, trivial⟩

theorem matches_sends {step : S → IonEvent → WriterStep S} (hset : Settles step) (s : S) (evs : List (Option IonEvent)) :
    Matches (sends step (.fresh s) evs).1.getLast? (sends step (.fresh s) evs).2 ∧ Good (sends step (.fresh s) evs).2 := by
  suffices h : ∀ (evs : List (Option IonEvent)) (st : TrampolineState S) (last : Option (Except PyErr DataEvent)),
      Matches last st → Good st →
      Matches ((sends step st evs).1.getLast?.or last) (sends step st evs).2 ∧ Good (sends step st evs).2 by
    have := h evs (.fresh s) none trivial trivial
    simpa using this
  intro evs
  induction evs with
  | nil => intro st last hm hg; simpa [sends] using ⟨hm, hg⟩
  | cons e evs ih =>
    intro st last hm hg
    obtain ⟨h1, h2⟩ := matches_send hset st hg e
    have := ih (send step st e).2 _ h1 h2
    simp only [sends, List.getLast?_cons]
    cases hl : (sends step (send step st e).2 evs).1.getLast? with
    | none => rw [hl] at this; simpa using this
    | some x => rw [hl] at this; simpa using this

/-- **C28** (protocol) After every history of `send`s to a new writer: if the last answer was `HAS_PENDING`, sending an
event raises `TypeError` (and kills the writer); if it was `NEEDS_INPUT` or `COMPLETE`, or if nothing was sent yet,
sending `None` raises `TypeError`, and so does an `INCOMPLETE` event unless it is the very first; after an exception
every `send` raises `StopIteration`. -/
theorem C28_protocol (step : S → IonEvent → WriterStep S) (hset : Settles step) (s : S) (evs : List (Option IonEvent)) :
    let last := (sends step (.fresh s) evs).1.getLast?
    let next := fun ev => ((sends step (.fresh s) (evs ++ [ev])).1.getLast?)
    ((∃ d, last = some (.ok (.hasPending, d))) → ∀ e, next (some e) = some (.error .typeError)) ∧
    ((last = none ∨ ∃ d, last = some (.ok (.needsInput, d)) ∨ last = some (.ok (.complete, d))) →
      next none = some (.error .typeError)) ∧
    ((∃ d, last = some (.ok (.needsInput, d)) ∨ last = some (.ok (.complete, d))) →
      ∀ e : IonEvent, e.eventType = .incomplete → next (some e) = some (.error .typeError)) ∧
    ((∃ err, last = some (.error err)) → ∀ ev, next ev = some (.error .stopIteration)) := by
  intro last next
  have hm := (matches_sends hset s evs).1
  have hnext : ∀ ev, next ev = some (send step (sends step (.fresh s) evs).2 ev).1 := by
    intro ev
    simp only [next, sends_append]
    simp [sends]
  simp only [hnext]
  change Matches last _ at hm
  generalize hl : last = l at hm
  generalize (sends step (.fresh s) evs).2 = st at hm
  refine ⟨?_, ?_, ?_, ?_⟩
  · rintro ⟨d, rfl⟩ e
    cases st <;> simp [Matches] at hm
    rfl
  · rintro (rfl | ⟨d, rfl | rfl⟩) <;> cases st <;> simp [Matches] at hm <;> rfl
  · rintro ⟨d, rfl | rfl⟩ e he <;> cases st <;> simp [Matches] at hm <;> simp [send, he]
  · rintro ⟨err, rfl⟩ ev
    cases st <;> simp [Matches] at hm
    cases ev <;> rfl

/-- The chunks and the outcome of `advance`, drained with `None`s. -/
theorem drain_advance (step : S → IonEvent → WriterStep S) (cs : List Bytes) (out : Except PyErr (WriteEventType × S))
    (n : Nat) (hn : n = cs.length) :
    let r := advance cs out
    let rest := sends step r.2 (List.replicate n none)
    r.1 :: rest.1 = cs.map (fun c => .ok (.hasPending, c)) ++ [(advance [] out).1] ∧ rest.2 = (advance [] out).2 := by
  induction cs generalizing n with
  | nil => subst hn; simp [sends]
  | cons c cs ih =>
    subst hn
    obtain ⟨h1, h2⟩ := ih cs.length rfl
    simp only [advance, List.length_cons, List.replicate_succ, sends, send]
    refine ⟨?_, h2⟩
    simp only [List.map_cons, List.cons_append]
    congr 1

/-- **C28** (flush) Whenever a writer is ready, sending it an event and then `None` once for every chunk the event
produces returns exactly these chunks, each once and in order, as `HAS_PENDING`, and last the outcome: `NEEDS_INPUT` or
`COMPLETE` with no data, after which the writer is ready again, or the exception.  In particular flushing terminates. -/
theorem C28_flush (step : S → IonEvent → WriterStep S) (s : S) (e : IonEvent) (he : e.eventType ≠ .incomplete) :
    sends step (.ready s) (some e :: List.replicate (step s e).1.length none) =
      ((step s e).1.map (fun c => .ok (.hasPending, c)) ++
        [match (step s e).2 with | .ok (t, _) => .ok (t, []) | .error err => .error err],
       match (step s e).2 with | .ok (_, s') => .ready s' | .error _ => .dead) := by
  obtain ⟨h1, h2⟩ := drain_advance step (step s e).1 (step s e).2 _ rfl
  simp only [sends, send, if_neg he]
  refine Prod.ext ?_ ?_
  · rw [h1]
    cases (step s e).2 with
    | error err => rfl
    | ok p => rfl
  · rw [h2]
    cases (step s e).2 with
    | error err => rfl
    | ok p => rfl

/-- The bytes handed out by a list of answers. -/
def delivered : List (Except PyErr DataEvent) → List Bytes
  | [] => []
  | .ok (_, d) :: rs => d :: delivered rs
  | .error _ :: rs => delivered rs

/-- `writer.py:115-152`: the sends by which `_drain`, repeated for every event, drives a writer (`blocking_writer`). -/
def driveSends (step : S → IonEvent → WriterStep S) (s : S) : List IonEvent → List (Option IonEvent)
  | [] => []
  | e :: es => some e :: (List.replicate (step s e).1.length none ++
      (match (step s e).2 with | .ok (_, s') => driveSends step s' es | .error _ => []))

theorem delivered_append (a b : List (Except PyErr DataEvent)) : delivered (a ++ b) = delivered a ++ delivered b := by
  induction a with
  | nil => rfl
  | cons r a ih =>
    cases r with
    | error e => simpa [delivered] using ih
    | ok d => obtain ⟨t, d⟩ := d; simp [delivered, ih]

theorem delivered_map (cs : List Bytes) : delivered (cs.map fun c => .ok (.hasPending, c)) = cs := by
  induction cs with
  | nil => rfl
  | cons c cs ih => simp [delivered, ih]

/-- **C28** (total output) Driving a ready writer through any events the way `blocking_writer` does, by sending `None`
while output is pending, delivers exactly the bytes of all steps in order, up to the first exception. -/
theorem C28_output (step : S → IonEvent → WriterStep S) (s : S) (evs : List IonEvent)
    (he : ∀ e ∈ evs, e.eventType ≠ .incomplete) :
    (delivered (sends step (.ready s) (driveSends step s evs)).1).flatten = (runEvents step s evs).1.flatten ∧
    (sends step (.ready s) (driveSends step s evs)).2 =
      (match (runEvents step s evs).2 with | .ok s' => .ready s' | .error _ => .dead) := by
  induction evs generalizing s with
  | nil => exact ⟨rfl, rfl⟩
  | cons e evs ih =>
    have hf := C28_flush step s e (he e (by simp))
    have hih := fun s' => ih s' (fun e' h' => he e' (by simp [h']))
    have e1 : driveSends step s (e :: evs) = (some e :: List.replicate (step s e).1.length none) ++
        (match (step s e).2 with | .ok (_, s') => driveSends step s' evs | .error _ => []) := by simp [driveSends]
    rw [e1, sends_append, hf]
    cases hst : step s e with
    | mk cs out =>
      cases out with
      | error err =>
        simp [sends, runEvents, hst, delivered_append, delivered_map, delivered]
      | ok p =>
        obtain ⟨t, s'⟩ := p
        obtain ⟨h1, h2⟩ := hih s'
        simp only [runEvents, hst]
        refine ⟨?_, by simpa using h2⟩
        simp [delivered_append, delivered_map, delivered, h1]

/-- **C28** (total output, new writer) The same for a writer that has just been created. -/
theorem C28_output_new (step : S → IonEvent → WriterStep S) (s : S) (e : IonEvent) (evs : List IonEvent)
    (he : ∀ e' ∈ e :: evs, e'.eventType ≠ .incomplete) :
    (delivered (sends step (.fresh s) (driveSends step s (e :: evs))).1).flatten = (runEvents step s (e :: evs)).1.flatten ∧
    (sends step (.fresh s) (driveSends step s (e :: evs))).2 =
      (match (runEvents step s (e :: evs)).2 with | .ok s' => .ready s' | .error _ => .dead) := by
  have h := C28_output step s (e :: evs) he
  have e1 : ∀ l, sends step (.fresh s) (some e :: l) = sends step (.ready s) (some e :: l) := by
    intro l; simp [sends, send, if_neg (he e (by simp))]
  have e2 : driveSends step s (e :: evs) = some e :: (List.replicate (step s e).1.length none ++
      (match (step s e).2 with | .ok (_, s') => driveSends step s' evs | .error _ => [])) := rfl
  rw [e2, e1, ← e2]
  exact h

end Ion.Trampoline
