import Verif.DataTrampoline
import Verif.Props.Trampoline
import Verif.TextAscii
set_option linter.unusedSimpArgs false
/-!
# Properties C28 and C29 for the text writer

C28: the protocol of `writer_trampoline` for every co-routine whose last event carries data, with the text writer as
instance.  C29: which ill-formed events the text writer rejects, and which not.
-/
namespace Ion.DataTrampoline
open Ion

variable {D S : Type}

/-- A history of `send`s: what each returned or raised, and the state after the last. -/
def sends (step : S → IonEvent → DStep D S) (st : DState D S) :
    List (Option IonEvent) → List (Except PyErr (WriteEventType × D)) × DState D S
  | [] => ([], st)
  | ev :: evs =>
    let r := send step st ev
    let rs := sends step r.2 evs
    (r.1 :: rs.1, rs.2)

theorem sends_append (step : S → IonEvent → DStep D S) (st : DState D S) (a b : List (Option IonEvent)) :
    sends step st (a ++ b) = ((sends step st a).1 ++ (sends step (sends step st a).2 b).1, (sends step (sends step st a).2 b).2) := by
  induction a generalizing st with
  | nil => simp [sends]
  | cons e a ih => simp [sends, ih]

/-- The state matches the last answer. -/
def Matches : Option (Except PyErr (WriteEventType × D)) → DState D S → Prop
  | none, .fresh _ => True
  | some (.ok (.hasPending, _)), .pending _ _ => True
  | some (.ok (.needsInput, _)), .ready _ => True
  | some (.ok (.complete, _)), .ready _ => True
  | some (.error _), .dead => True
  | _, _ => False

/-- The step function of a writer never ends a step with `HAS_PENDING`. -/
def Settles (step : S → IonEvent → DStep D S) : Prop :=
  ∀ s e t d s', (step s e).2 = .ok ((t, d), s') → t ≠ .hasPending

theorem matches_advance {cs : List D} {out : Except PyErr ((WriteEventType × D) × S)}
    (h : ∀ t d s', out = .ok ((t, d), s') → t ≠ .hasPending) :
    Matches (some (advance cs out).1) (advance cs out).2 := by
  cases cs with
  | cons c cs => trivial
  | nil =>
    cases out with
    | error e => trivial
    | ok p =>
      obtain ⟨⟨t, d⟩, s⟩ := p
      have := h t d s rfl
      cases t <;> simp_all [advance, Matches]

/-- Pending states hold outcomes of steps. -/
def Good (st : DState D S) : Prop :=
  match st with
  | .pending _ out => ∀ t d s', out = .ok ((t, d), s') → t ≠ .hasPending
  | _ => True

theorem good_advance {cs : List D} {out : Except PyErr ((WriteEventType × D) × S)}
    (h : ∀ t d s', out = .ok ((t, d), s') → t ≠ .hasPending) : Good (advance cs out).2 := by
  cases cs with
  | cons c cs => exact h
  | nil => cases out <;> trivial

theorem matches_send {step : S → IonEvent → DStep D S} (hset : Settles step) (st : DState D S) (hg : Good st)
    (ev : Option IonEvent) : Matches (some (send step st ev).1) (send step st ev).2 ∧ Good (send step st ev).2 := by
  cases st with
  | fresh s =>
    cases ev with
    | none => exact ⟨trivial, trivial⟩
    | some e => exact ⟨matches_advance (hset s e), good_advance (hset s e)⟩
  | ready s =>
    cases ev with
    | none => exact ⟨trivial, trivial⟩
    | some e =>
      simp only [send]
      split
      · exact ⟨trivial, trivial⟩
      · exact ⟨matches_advance (hset s e), good_advance (hset s e)⟩
  | pending cs out =>
    cases ev with
    | none => exact ⟨matches_advance hg, good_advance hg⟩
    | some e => exact ⟨trivial, trivial⟩
  | dead => cases ev <;> exact ⟨trivial, trivial⟩

theorem matches_sends {step : S → IonEvent → DStep D S} (hset : Settles step) (s : S) (evs : List (Option IonEvent)) :
    Matches (sends step (.fresh s) evs).1.getLast? (sends step (.fresh s) evs).2 ∧ Good (sends step (.fresh s) evs).2 := by
  suffices h : ∀ (evs : List (Option IonEvent)) (st : DState D S) (last : Option (Except PyErr (WriteEventType × D))),
      Matches last st → Good st →
      Matches ((sends step st evs).1.getLast?.or last) (sends step st evs).2 ∧ Good (sends step st evs).2 by
    have := h evs (.fresh s) none trivial trivial
    simpa using this
  intro evs
  induction evs with
  | nil => intro st last hm hg; simpa [sends] using ⟨hm, hg⟩
  | cons e evs ih =>
    intro st last hm hg
    obtain ⟨h1, h2⟩ := matches_send hset st hg e
    have := ih (send step st e).2 _ h1 h2
    simp only [sends, List.getLast?_cons]
    cases hl : (sends step (send step st e).2 evs).1.getLast? with
    | none => rw [hl] at this; simpa using this
    | some x => rw [hl] at this; simpa using this

/-- What C28 says of a trampoline: after every history, which `send`s raise. -/
theorem protocol (step : S → IonEvent → DStep D S) (hset : Settles step) (s : S) (evs : List (Option IonEvent)) :
    let last := (sends step (.fresh s) evs).1.getLast?
    let next := fun ev => ((sends step (.fresh s) (evs ++ [ev])).1.getLast?)
    ((∃ d, last = some (.ok (.hasPending, d))) → ∀ e, next (some e) = some (.error .typeError)) ∧
    ((last = none ∨ ∃ d, last = some (.ok (.needsInput, d)) ∨ last = some (.ok (.complete, d))) →
      next none = some (.error .typeError)) ∧
    ((∃ d, last = some (.ok (.needsInput, d)) ∨ last = some (.ok (.complete, d))) →
      ∀ e : IonEvent, e.eventType = .incomplete → next (some e) = some (.error .typeError)) ∧
    ((∃ err, last = some (.error err)) → ∀ ev, next ev = some (.error .stopIteration)) := by
  intro last next
  have hm := (matches_sends hset s evs).1
  have hnext : ∀ ev, next ev = some (send step (sends step (.fresh s) evs).2 ev).1 := by
    intro ev
    simp only [next, sends_append]
    simp [sends]
  simp only [hnext]
  change Matches last _ at hm
  generalize hl : last = l at hm
  generalize (sends step (.fresh s) evs).2 = st at hm
  refine ⟨?_, ?_, ?_, ?_⟩
  · rintro ⟨d, rfl⟩ e
    cases st <;> simp [Matches] at hm
    rfl
  · rintro (rfl | ⟨d, rfl | rfl⟩) <;> cases st <;> simp [Matches] at hm <;> rfl
  · rintro ⟨d, rfl | rfl⟩ e he <;> cases st <;> simp [Matches] at hm <;> simp [send, he]
  · rintro ⟨err, rfl⟩ ev
    cases st <;> simp [Matches] at hm
    cases ev <;> rfl

/-- What an outcome answers, and the state after it. -/
def settled (out : Except PyErr ((WriteEventType × D) × S)) : Except PyErr (WriteEventType × D) × DState D S :=
  match out with
  | .ok (d, s) => (.ok d, .ready s)
  | .error err => (.error err, .dead)

/-- Chunks that are pending are drained one at a time. -/
theorem drain_pending (step : S → IonEvent → DStep D S) (cs : List D) (out : Except PyErr ((WriteEventType × D) × S))
    (h : ∀ t d s', out = .ok ((t, d), s') → t ≠ .hasPending) (fuel : Nat) (hf : cs.length < fuel) :
    drain step fuel (.pending cs out) none = (cs.map (fun c => .ok (.hasPending, c)) ++ [(settled out).1], (settled out).2) := by
  induction cs generalizing fuel with
  | nil =>
    obtain ⟨n, rfl⟩ : ∃ n, fuel = n + 1 := ⟨fuel - 1, by simp at hf; omega⟩
    cases out with
    | error err => rfl
    | ok p =>
      obtain ⟨⟨t, d⟩, s'⟩ := p
      have := h t d s' rfl
      cases t with
      | hasPending => exact absurd rfl this
      | needsInput => rfl
      | complete => rfl
  | cons c cs ih =>
    obtain ⟨n, rfl⟩ : ∃ n, fuel = n + 1 := ⟨fuel - 1, by simp at hf; omega⟩
    simp only [List.length_cons] at hf
    simp only [drain, send, advance, ih n (by omega), List.map_cons, List.cons_append]

/-- The same for a step. -/
theorem drain_advance (step : S → IonEvent → DStep D S) (hset : Settles step) (s : S) (st : DState D S) (e : IonEvent)
    (hs : send step st (some e) = advance (step s e).1 (step s e).2) (fuel : Nat) (hf : (step s e).1.length < fuel) :
    drain step fuel st (some e) =
      ((step s e).1.map (fun c => .ok (.hasPending, c)) ++ [(settled (step s e).2).1], (settled (step s e).2).2) := by
  have hh := hset s e
  obtain ⟨n, rfl⟩ : ∃ n, fuel = n + 1 := ⟨fuel - 1, by omega⟩
  rw [drain, hs]
  generalize step s e = r at *
  obtain ⟨cs, out⟩ := r
  cases cs with
  | nil =>
    cases out with
    | error err => rfl
    | ok p =>
      obtain ⟨⟨t, d⟩, s'⟩ := p
      have := hh t d s' rfl
      cases t with
      | hasPending => exact absurd rfl this
      | needsInput => rfl
      | complete => rfl
  | cons c cs =>
    simp only [List.length_cons] at hf
    simp only [advance, drain_pending step cs out hh n (by omega), List.map_cons, List.cons_append]

end Ion.DataTrampoline

namespace Ion.TextWriter
open Ion Ion.DataTrampoline
open Ion.TextSpec (Faithful)

/-- A step of the text writer never ends with `HAS_PENDING`. -/
theorem text_settles (F : FloatText) (indent : Option (List Nat)) : Settles (step F indent) := by
  have hfin : ∀ s e t d s', finish F s e = .ok ((t, d), s') → t ≠ .hasPending := by
    intro s e t d s' h
    unfold finish at h
    repeat' split at h
    all_goals first
      | cases h; done
      | (simp only [Except.ok.injEq, Prod.mk.injEq] at h; obtain ⟨⟨rfl, -⟩, -⟩ := h; first | simp | (split <;> simp))
  intro s e t d s' h
  unfold step at h
  cases hfc : fieldChunks indent.isSome s e with
  | error err => simp [hfc] at h
  | ok fc =>
    simp only [hfc] at h
    split at h
    · cases h
    · exact hfin s e t d s' h

/-- **C28** (text writer, protocol) After every history of `send`s to a new text writer, whatever the indent: if the last
answer was `HAS_PENDING`, sending an event raises `TypeError` (and kills the writer); if it was `NEEDS_INPUT` or `COMPLETE`,
or if nothing was sent yet, sending `None` raises `TypeError`, and so does an `INCOMPLETE` event unless it is the very
first; after an exception every `send` raises `StopIteration`. -/
theorem C28_text_protocol (F : FloatText) (indent : Option (List Nat)) (evs : List (Option IonEvent)) :
    let answers := fun evs => (sends (step F indent) (.fresh {}) evs).1
    let last := (answers evs).getLast?
    let next := fun ev => (answers (evs ++ [ev])).getLast?
    ((∃ d, last = some (.ok (.hasPending, d))) → ∀ e, next (some e) = some (.error .typeError)) ∧
    ((last = none ∨ ∃ d, last = some (.ok (.needsInput, d)) ∨ last = some (.ok (.complete, d))) →
      next none = some (.error .typeError)) ∧
    ((∃ d, last = some (.ok (.needsInput, d)) ∨ last = some (.ok (.complete, d))) →
      ∀ e : IonEvent, e.eventType = .incomplete → next (some e) = some (.error .typeError)) ∧
    ((∃ err, last = some (.error err)) → ∀ ev, next ev = some (.error .stopIteration)) :=
  protocol (step F indent) (text_settles F indent) {} evs

/-- The data of the answers. -/
def dataOf : List (Except PyErr (WriteEventType × List Nat)) → List Nat
  | [] => []
  | .ok (_, d) :: rs => d ++ dataOf rs
  | .error _ :: rs => dataOf rs

theorem dataOf_append (a b : List (Except PyErr (WriteEventType × List Nat))) : dataOf (a ++ b) = dataOf a ++ dataOf b := by
  induction a with
  | nil => rfl
  | cons r a ih =>
    cases r with
    | error e => simpa [dataOf] using ih
    | ok d => obtain ⟨t, d⟩ := d; simp [dataOf, ih]

theorem dataOf_map (cs : List (List Nat)) : dataOf (cs.map fun c => .ok (.hasPending, c)) = cs.flatten := by
  induction cs with
  | nil => rfl
  | cons c cs ih => simp [dataOf, ih]

/-- `writer.py:135-152 blocking_writer`: every event is drained, all data written; it ends at the first exception.  `fuel`
bounds the sends for one event. -/
def blockingWrites (F : FloatText) (indent : Option (List Nat)) (fuel : Nat) (st : DState (List Nat) State) :
    List IonEvent → List Nat × Except PyErr (DState (List Nat) State)
  | [] => ([], .ok st)
  | e :: es =>
    let r := drain (step F indent) fuel st (some e)
    match r.1.getLast? with
    | some (.ok _) =>
      let rs := blockingWrites F indent fuel r.2 es
      (dataOf r.1 ++ rs.1, rs.2)
    | some (.error err) => (dataOf r.1, .error err)
    | none => (dataOf r.1, .error .modelFuel)

/-- The last answer of a drained writer. -/
theorem blocking_step (F : FloatText) (indent : Option (List Nat)) (s : State) (st : DState (List Nat) State) (e : IonEvent)
    (es : List IonEvent) (fuel : Nat) (hs : send (step F indent) st (some e) = advance (step F indent s e).1 (step F indent s e).2)
    (hf : (step F indent s e).1.length < fuel) :
    blockingWrites F indent fuel st (e :: es) =
      match step F indent s e with
      | (cs, .error err) => (cs.flatten, .error err)
      | (cs, .ok ((_, d), s')) =>
        (cs.flatten ++ d ++ (blockingWrites F indent fuel (.ready s') es).1, (blockingWrites F indent fuel (.ready s') es).2) := by
  have hd := drain_advance (step F indent) (text_settles F indent) s st e hs fuel hf
  simp only [blockingWrites, hd]
  generalize step F indent s e = r
  obtain ⟨cs, out⟩ := r
  cases out with
  | error err => simp [settled, List.getLast?_append, dataOf_append, dataOf_map, dataOf]
  | ok p =>
    obtain ⟨⟨t, d⟩, s'⟩ := p
    simp [settled, List.getLast?_append, dataOf_append, dataOf_map, dataOf]

theorem blocking_run (F : FloatText) (indent : Option (List Nat)) (evs : List IonEvent)
    (he : ∀ e ∈ evs, e.eventType ≠ .incomplete) (s : State) (st : DState (List Nat) State) (hst : st = .fresh s ∨ st = .ready s) :
    ∃ n, ∀ fuel, n ≤ fuel →
      (blockingWrites F indent fuel st evs).1 = (runText F indent s evs).1 ∧
      (match (runText F indent s evs).2 with
        | .ok s' => (blockingWrites F indent fuel st evs).2 = .ok (.ready s') ∨
            (evs = [] ∧ (blockingWrites F indent fuel st evs).2 = .ok st)
        | .error err => (blockingWrites F indent fuel st evs).2 = .error err) := by
  induction evs generalizing s st with
  | nil => exact ⟨0, fun fuel _ => ⟨rfl, .inr ⟨rfl, rfl⟩⟩⟩
  | cons e evs ih =>
    have hs : send (step F indent) st (some e) = advance (step F indent s e).1 (step F indent s e).2 := by
      have := he e (by simp)
      rcases hst with rfl | rfl <;> simp [send, this]
    cases hstep : step F indent s e with
    | mk cs out =>
      cases out with
      | error err =>
        refine ⟨cs.length + 1, fun fuel hf => ?_⟩
        rw [blocking_step F indent s st e evs fuel hs (by rw [hstep]; exact hf)]
        simp [runText, hstep]
      | ok p =>
        obtain ⟨⟨t, d⟩, s'⟩ := p
        obtain ⟨n, hn⟩ := ih (fun e' h' => he e' (by simp [h'])) s' (.ready s') (.inr rfl)
        refine ⟨max n (cs.length + 1), fun fuel hf => ?_⟩
        rw [blocking_step F indent s st e evs fuel hs (by rw [hstep]; simp only; omega)]
        obtain ⟨h1, h2⟩ := hn fuel (by omega)
        simp only [runText, hstep, h1, true_and]
        generalize ho : (runText F indent s' evs).2 = o at h2
        cases o with
        | error err => exact h2
        | ok s'' =>
          rcases h2 with h2 | ⟨rfl, h2⟩
          · exact .inl h2
          · simp only [runText, Except.ok.injEq] at ho
            subst ho
            exact .inl h2

/-- **C28** (text writer, flush) Whenever the text writer is ready for an event, sending it the event and then `None` as long
as it answers `HAS_PENDING` terminates (with at most one `send` more than the event has chunks before its last); the answers
are the chunks, each once and in order, and last an exception, or `NEEDS_INPUT` or `COMPLETE` with the last piece of data,
after which the writer is ready again. -/
theorem C28_text_flush (F : FloatText) (indent : Option (List Nat)) (s : State) (e : IonEvent) (he : e.eventType ≠ .incomplete)
    (fuel : Nat) (hf : (step F indent s e).1.length < fuel) :
    drain (step F indent) fuel (.ready s) (some e) =
      ((step F indent s e).1.map (fun c => .ok (.hasPending, c)) ++
        [match (step F indent s e).2 with | .ok (d, _) => .ok d | .error err => .error err],
       match (step F indent s e).2 with | .ok (_, s') => .ready s' | .error _ => .dead) ∧
    ∀ d s', (step F indent s e).2 = .ok (d, s') → d.1 = .needsInput ∨ d.1 = .complete := by
  have h := drain_advance (step F indent) (text_settles F indent) s (.ready s) e (by simp [send, he]) fuel hf
  refine ⟨?_, ?_⟩
  · rw [h]
    cases (step F indent s e).2 with
    | error err => rfl
    | ok p => rfl
  · rintro ⟨t, d⟩ s' hs
    have := text_settles F indent s e t d s' hs
    cases t <;> simp_all

/-- **C28** (text writer, total output) Driving a new text writer through any events the way `blocking_writer` does ends, and
writes exactly the data of all steps in order, up to the first exception, which is raised to the caller. -/
theorem C28_text_output (F : FloatText) (indent : Option (List Nat)) (evs : List IonEvent)
    (he : ∀ e ∈ evs, e.eventType ≠ .incomplete) :
    ∃ n, ∀ fuel, n ≤ fuel →
      (blockingWrites F indent fuel (.fresh {}) evs).1 = (runText F indent {} evs).1 ∧
      ∀ err, (blockingWrites F indent fuel (.fresh {}) evs).2 = .error err ↔ (runText F indent {} evs).2 = .error err := by
  obtain ⟨n, hn⟩ := blocking_run F indent evs he {} (.fresh {}) (.inl rfl)
  refine ⟨n, fun fuel hf => ⟨(hn fuel hf).1, fun err => ?_⟩⟩
  have h2 := (hn fuel hf).2
  generalize (runText F indent {} evs).2 = o at h2 ⊢
  cases o with
  | error err' => simp only at h2; rw [h2]; simp
  | ok s' => rcases h2 with h2 | ⟨-, h2⟩ <;> rw [h2] <;> simp

/-! ## C29 -/

/-- The types of the containers open after a history, innermost first. -/
def openTypes : List (Option IonType) → List IonEvent → List (Option IonType)
  | st, [] => st
  | st, e :: es => match e.eventType with
    | .containerStart => openTypes (e.ionType :: st) es
    | .containerEnd => openTypes st.tail es
    | _ => openTypes st es

/-- A symbol that has neither text nor symbol ID, or whose text has unpaired surrogates. -/
def NoText : SymArg → Prop
  | .text t => (unicodeIter t).2 ≠ none
  | .tok k => match k.text with
    | some t => (unicodeIter t).2 ≠ none
    | none => k.sid = none

/-- Whether the Python class of a value does not fit the Ion type. -/
def Mismatch : IonType → PyVal → Prop
  | .null, _ => True
  | .bool, _ => False
  | .int, v => match v with | .int _ | .bool _ => False | _ => True
  | .float, v => match v with | .float _ => False | _ => True
  | .decimal, v => match v with | .decimal _ | .decimalSpecial _ => False | _ => True
  | .timestamp, v => match v with | .timestamp _ => False | _ => True
  | .symbol, v => match v with | .sym _ | .str _ => False | _ => True
  | .string, v => match v with | .str _ => False | _ => True
  | .clob, v => match v with | .bytes _ | .str [] => False | _ => True
  | .blob, v => match v with | .bytes _ => False | _ => True
  | .list, _ | .sexp, _ | .struct, _ => True

/-- What makes an event ill formed for the text writer after a history that leaves the containers `opens` open. -/
inductive Bad (opens : List (Option IonType)) (e : IonEvent) : Prop
  | unmatchedEnd : e.eventType = .containerEnd → opens = [] → Bad opens e
  | streamEndInside : e.eventType = .streamEnd → opens ≠ [] → Bad opens e
  | markerInside : e.eventType = .versionMarker → opens ≠ [] → Bad opens e
  | incomplete : e.eventType = .incomplete → Bad opens e
  | notContainer : e.eventType = .containerStart → (∀ ty, e.ionType = some ty → ty.isContainer = false) → Bad opens e
  | noFieldName : e.eventType.beginsValue = true → opens.head? = some (some .struct) → e.fieldName = none → Bad opens e
  | badFieldName (f : SymArg) : e.eventType.beginsValue = true → opens.head? = some (some .struct) → e.fieldName = some f → NoText f →
      Bad opens e
  | badAnnotation (a : SymArg) : e.eventType.beginsValue = true → a ∈ e.annotations → NoText a → Bad opens e
  | untyped : e.eventType = .scalar → e.ionType = none → Bad opens e
  | raising (err : PyErr) : e.eventType = .scalar → e.value = .error err → Bad opens e
  | mismatch (ty : IonType) (v : PyVal) : e.eventType = .scalar → e.ionType = some ty → e.value = .ok (some v) → Mismatch ty v → Bad opens e

theorem textOrError_bad {t : Text} (h : (unicodeIter t).2 ≠ none) (q : Option Nat) (suf : List Nat) : ∃ err, textOrError t q suf = .error err := by
  unfold textOrError
  generalize unicodeIter t = r at *
  obtain ⟨a, b⟩ := r
  cases b with
  | none => exact absurd rfl h
  | some err => exact ⟨err, rfl⟩

theorem serializeSymArg_bad {a : SymArg} (h : NoText a) (suf : List Nat) : ∃ err, serializeSymArg a suf = .error err := by
  cases a with
  | text t => exact textOrError_bad h _ _
  | tok k =>
    obtain ⟨tx, sid, loc⟩ := k
    cases tx with
    | some t => exact textOrError_bad h _ _
    | none => cases sid with
      | some n => cases h
      | none => exact ⟨_, rfl⟩

theorem annotationChunks_bad {as : List SymArg} {a : SymArg} (ha : a ∈ as) (h : NoText a) : ∃ err, (annotationChunks as).2 = some err := by
  induction as with
  | nil => cases ha
  | cons b as ih =>
    simp only [annotationChunks]
    cases hb : serializeSymArg b [58, 58] with
    | error err => exact ⟨err, rfl⟩
    | ok bs =>
      rcases List.mem_cons.mp ha with rfl | ha
      · obtain ⟨err, he⟩ := serializeSymArg_bad h [58, 58]
        rw [he] at hb; cases hb
      · exact ih ha

theorem serializeValue_mismatch (F : FloatText) {ty : IonType} {v : PyVal} (h : Mismatch ty v) : ∃ err, serializeValue F ty v = .error err := by
  cases ty with
  | clob =>
    cases v with
    | str t => cases t with
      | nil => exact absurd h (by simp [Mismatch])
      | cons c t => exact ⟨_, rfl⟩
    | bytes b => exact absurd h (by simp [Mismatch])
    | _ => exact ⟨_, rfl⟩
  | _ => cases v <;> first | exact ⟨_, rfl⟩ | exact absurd h (by simp [Mismatch])

/-- The frames of the writer are the open containers. -/
theorem step_frames (F : FloatText) (indent : Option (List Nat)) (s s' : State) (e : IonEvent) (d : WriteEventType × List Nat)
    (h : (step F indent s e).2 = .ok (d, s')) :
    s'.frames.map (fun f => some f.1) = openTypes (s.frames.map (fun f => some f.1)) [e] := by
  have hset : ∀ s : State, s.setWritten.frames.map (fun f => some f.1) = s.frames.map (fun f => some f.1) := by
    intro s
    obtain ⟨fr, top⟩ := s
    cases fr with
    | nil => rfl
    | cons f fr => rfl
  have hfin : finish F s e = .ok (d, s') := by
    unfold step at h
    cases hfc : fieldChunks indent.isSome s e with
    | error err => simp [hfc] at h
    | ok fc =>
      simp only [hfc] at h
      split at h
      · cases h
      · exact h
  unfold finish at hfin
  cases het : e.eventType with
  | containerStart =>
    simp only [het] at hfin
    cases hty : e.ionType with
    | none => simp [hty] at hfin
    | some ty =>
      simp only [hty] at hfin
      split at hfin
      · simp only [Except.ok.injEq, Prod.mk.injEq] at hfin
        rw [← hfin.2]
        simp [openTypes, het, hty, hset]
      · cases hfin
  | streamEnd =>
    simp only [het] at hfin
    split at hfin
    · simp only [Except.ok.injEq, Prod.mk.injEq] at hfin
      rw [← hfin.2, hset]; simp [openTypes, het]
    · cases hfin
  | versionMarker =>
    simp only [het] at hfin
    split at hfin
    · simp only [Except.ok.injEq, Prod.mk.injEq] at hfin
      rw [← hfin.2, hset]; simp [openTypes, het]
    · cases hfin
  | scalar =>
    simp only [het] at hfin
    split at hfin
    · cases hfin
    · simp only [Except.ok.injEq, Prod.mk.injEq] at hfin
      rw [← hfin.2, hset]; simp [openTypes, het]
  | containerEnd =>
    simp only [het] at hfin
    split at hfin
    · cases hfin
    · rename_i ty w fs hfr
      simp only [Except.ok.injEq, Prod.mk.injEq] at hfin
      rw [← hfin.2]; simp [openTypes, het, hfr]
  | incomplete => simp [het] at hfin

theorem openTypes_cons (st : List (Option IonType)) (e : IonEvent) (es : List IonEvent) :
    openTypes st (e :: es) = openTypes (openTypes st [e]) es := by
  cases het : e.eventType <;> simp [openTypes, het]

theorem run_frames (F : FloatText) (indent : Option (List Nat)) (evs : List IonEvent) (s s' : State) (out : List Nat)
    (h : runText F indent s evs = (out, .ok s')) :
    s'.frames.map (fun f => some f.1) = openTypes (s.frames.map (fun f => some f.1)) evs := by
  induction evs generalizing s out with
  | nil => simp [runText] at h; rw [← h.2]; rfl
  | cons e evs ih =>
    simp only [runText] at h
    cases hst : step F indent s e with
    | mk cs o =>
      cases o with
      | error err => simp [hst] at h
      | ok p =>
        obtain ⟨d, s1⟩ := p
        obtain ⟨t, d⟩ := d
        simp only [hst, Prod.mk.injEq] at h
        rw [openTypes_cons, ← step_frames F indent s s1 e (t, d) (by rw [hst])]
        exact ih s1 _ (Prod.ext rfl h.2)

theorem runText_append (F : FloatText) (indent : Option (List Nat)) (a b : List IonEvent) (s s' : State) (out : List Nat)
    (h : runText F indent s a = (out, .ok s')) :
    runText F indent s (a ++ b) = (out ++ (runText F indent s' b).1, (runText F indent s' b).2) := by
  induction a generalizing s out with
  | nil => simp [runText] at h; obtain ⟨rfl, rfl⟩ := h; simp
  | cons e a ih =>
    simp only [runText, List.cons_append] at h ⊢
    cases hst : step F indent s e with
    | mk cs o =>
      cases o with
      | error err => simp [hst] at h
      | ok p =>
        obtain ⟨⟨t, d⟩, s1⟩ := p
        simp only [hst, Prod.mk.injEq] at h ⊢
        rw [ih s1 _ (Prod.ext rfl h.2), ← h.1]
        simp

theorem step_bad (F : FloatText) (indent : Option (List Nat)) (s : State) (e : IonEvent)
    (h : Bad (s.frames.map (fun f => some f.1)) e) : ∃ err, (step F indent s e).2 = .error err := by
  unfold step
  cases hfc : fieldChunks indent.isSome s e with
  | error err => exact ⟨err, rfl⟩
  | ok fc =>
    simp only
    have hannot : ∀ a ∈ e.annotations, e.eventType.beginsValue = true → NoText a →
        ∃ err, (if e.eventType.beginsValue then annotationChunks e.annotations else ([], none)).2 = some err := by
      intro a ha hb hn
      rw [if_pos hb]
      exact annotationChunks_bad ha hn
    have hfield : e.eventType.beginsValue = true → (s.frames.map (fun f => some f.1)).head? = some (some .struct) →
        ∃ f, e.fieldName = some f ∧ ¬ NoText f := by
      intro hb hh
      unfold fieldChunks at hfc
      obtain ⟨fr, top⟩ := s
      cases fr with
      | nil => simp at hh
      | cons f fr =>
        obtain ⟨ty, w⟩ := f
        simp at hh
        subst hh
        simp only [hb, if_true] at hfc
        cases hfn : e.fieldName with
        | none => simp [hfn] at hfc
        | some f =>
          refine ⟨f, rfl, fun hn => ?_⟩
          obtain ⟨err, he⟩ := serializeSymArg_bad hn [58]
          simp [hfn, he] at hfc
    generalize hann : (if e.eventType.beginsValue then annotationChunks e.annotations else ([], none)) = ann at hannot ⊢
    obtain ⟨ac, ao⟩ := ann
    cases ao with
    | some err => exact ⟨err, rfl⟩
    | none =>
      simp only
      unfold finish
      cases h with
      | unmatchedEnd het ho => simp only [het]; cases hf : s.frames <;> simp_all
      | streamEndInside het ho => simp only [het]; cases hf : s.frames <;> simp_all
      | markerInside het ho => simp only [het]; cases hf : s.frames <;> simp_all
      | incomplete het => simp [het]
      | notContainer het ho =>
        simp only [het]
        cases hty : e.ionType with
        | none => exact ⟨_, rfl⟩
        | some ty => simp [ho ty hty]
      | noFieldName hb hh hn => obtain ⟨f, hf, -⟩ := hfield hb hh; rw [hn] at hf; cases hf
      | badFieldName f hb hh hf hn =>
        obtain ⟨f', hf', hn'⟩ := hfield hb hh
        rw [hf] at hf'; cases hf'; exact absurd hn hn'
      | badAnnotation a hb ha hn => obtain ⟨err, he⟩ := hannot a ha hb hn; cases he
      | untyped het hty =>
        have : ∃ err, serializeScalar F e = .error err := by
          unfold serializeScalar
          rw [hty]
          cases e.value with
          | error err => exact ⟨err, rfl⟩
          | ok v => cases v <;> exact ⟨_, rfl⟩
        obtain ⟨err, he⟩ := this
        simp [het, he]
      | raising err het hv => simp [het, serializeScalar, hv]
      | mismatch ty v het hty hv hm =>
        obtain ⟨err, he⟩ := serializeValue_mismatch F hm
        simp [het, serializeScalar, hv, hty, he]

/-- **C29** (text writer) After every accepted history and with every indent, an ill-formed event - an unmatched
`CONTAINER_END`, `STREAM_END` or a version marker inside a container, `INCOMPLETE`, a container event of a scalar type, a
missing field name inside a struct, a field name or annotation without text and symbol ID or with unpaired surrogates, a
scalar without type, whose value raises, or whose Python class does not fit its Ion type - raises an exception. -/
theorem C29_text_writer_rejects (F : FloatText) (indent : Option (List Nat)) (evs : List IonEvent) (out : List Nat) (s : State)
    (hrun : runText F indent {} evs = (out, .ok s)) (e : IonEvent) (hbad : Bad (openTypes [] evs) e) :
    ∃ more err, runText F indent {} (evs ++ [e]) = (out ++ more, .error err) := by
  have hf := run_frames F indent evs {} s out hrun
  simp only [List.map_nil] at hf
  rw [← hf] at hbad
  obtain ⟨err, he⟩ := step_bad F indent s e hbad
  rw [runText_append F indent evs [e] {} s out hrun]
  cases hst : step F indent s e with
  | mk cs o =>
    rw [hst] at he
    simp only at he
    subst he
    exact ⟨cs.flatten, err, by simp [runText, hst]⟩

/-- **C29** (text writer, false part) Unlike the binary writer, the text writer has already written something when it rejects an
event: in a struct with a field, it writes a comma, the field name and the annotations of a scalar that it then rejects. -/
theorem C29_text_writes_before_rejecting (F : FloatText) :
    ∃ evs e, Bad (openTypes [] evs) e ∧ (∃ s, runText F none {} evs = (asc ['{','a',':','t','r','u','e'], .ok s)) ∧
      runText F none {} (evs ++ [e]) = (asc ['{','a',':','t','r','u','e',',','b',':','c',':',':'], .error .typeError) := by
  have hu : ∀ c, c < 128 → unicodeIter [c] = ([c], none) := fun c hc =>
    iter_unicode (fun d hd => by rw [List.mem_singleton.mp hd]; exact ⟨by omega, by omega⟩)
  refine ⟨[{ eventType := .containerStart, ionType := some .struct }, { eventType := .scalar, ionType := some .bool, value := .ok (some (.bool true)), fieldName := some (.text [97]) }],
    { eventType := .scalar, ionType := some .int, value := .ok (some (.str [])), fieldName := some (.text [98]), annotations := [.text [99]] }, ?_, ?_, ?_⟩
  · exact .mismatch .int (.str []) rfl rfl rfl trivial
  · exact ⟨{ frames := [(.struct, true)], top := true }, by
      simp [runText, step, delimiterChunks, indentChunks, fieldChunks, annotationChunks, serializeSymArg, symbolText, textOrError, hu,
        finish, State.written, State.setWritten, IonEventType.beginsValue, serializeScalar, serializeValue, truthy, serializeBool, openMark, IonType.isContainer]
      decide⟩
  · simp [runText, step, delimiterChunks, indentChunks, fieldChunks, annotationChunks, serializeSymArg, symbolText, textOrError, hu,
        finish, State.written, State.setWritten, IonEventType.beginsValue, serializeScalar, serializeValue, truthy, serializeBool, openMark, IonType.isContainer]
    decide

/-- Non-vacuity of C29: after the start of a list, `STREAM_END` is rejected. -/
example (F : FloatText) : Bad (openTypes [] [{ eventType := .containerStart, ionType := some .list }]) ION_STREAM_END_EVENT ∧
    (∃ s, runText F none {} [{ eventType := .containerStart, ionType := some .list }] = ([91], .ok s)) :=
  ⟨.streamEndInside rfl (by simp [openTypes]), ⟨_, rfl⟩⟩

/-- Non-vacuity of C28: a list with an annotated element, through the trampoline: the annotation is pending, then the
element follows. -/
example (F : FloatText) : (sends (step F none) (.fresh {}) [some { eventType := .containerStart, ionType := some .list },
    some { eventType := .scalar, ionType := some .bool, value := .ok (some (.bool true)), annotations := [.tok ⟨none, some 4, none⟩] }, none,
    some { eventType := .containerEnd, ionType := some .list }]).1 =
  [.ok (.needsInput, [91]), .ok (.hasPending, asc ['$','4',':',':']), .ok (.needsInput, asc ['t','r','u','e']), .ok (.complete, [93])] := by
  have h : natDigits 4 = [52] := by rw [natDigits]; rfl
  simp [sends, send, step, advance, delimiterChunks, indentChunks, fieldChunks, annotationChunks, serializeSymArg, serializeToken, h,
    finish, State.written, State.setWritten, IonEventType.beginsValue, serializeScalar, serializeValue, truthy, serializeBool, openMark, closeMark, IonType.isContainer, asc]

/-! ## C38: layout -/

/-- **C38** (characters) Whatever is sent to the text writer, accepted or not: every character it writes is printable ASCII, or,
if there is an indent, a newline or a character of the indent. -/
theorem C38_output_printable (F : FloatText) (hF : Faithful F) (indent : Option Text) (ind : Option (List Nat)) (h : checkIndent indent = .ok ind)
    (evs : List IonEvent) : ∀ c ∈ (runText F ind {} evs).1, (0x20 ≤ c ∧ c ≤ 0x7E) ∨ ∃ t, indent = some t ∧ (c = 10 ∨ c ∈ t) := by
  have he : ind = indent := by
    cases indent with
    | none => simp [checkIndent] at h; exact h.symm
    | some t =>
      simp only [checkIndent] at h
      split at h
      · split at h
        · simp at h; exact h.symm
        · cases h
      · cases h
  subst he
  intro c hc
  exact layout_run hF evs {} c hc

/-- **C38** (indent) The text writer takes no indent, or an indent of whitespace (as Python's `\s` knows it) that Latin-1 can
encode; any other text raises an exception. -/
theorem C38_indent_accepted (indent : Option Text) :
    (∃ ind, checkIndent indent = .ok ind) ↔ ∀ t, indent = some t → ∀ c ∈ t, c < 256 ∧
      (c ∈ [9, 10, 11, 12, 13, 28, 29, 30, 31, 32, 0x85, 0xA0]) := by
  cases indent with
  | none => simp [checkIndent]
  | some t =>
    have key : (t.all isSpace = true ∧ t.all (· < 256) = true) ↔ ∀ c ∈ t, c < 256 ∧ (c ∈ [9, 10, 11, 12, 13, 28, 29, 30, 31, 32, 0x85, 0xA0]) := by
      simp only [List.all_eq_true, ← forall_and]
      refine forall_congr' fun c => ?_
      simp only [isSpace, Bool.or_eq_true, Bool.and_eq_true, decide_eq_true_eq, List.mem_cons, List.not_mem_nil, or_false]
      constructor
      · intro h hc
        have := h hc
        omega
      · intro h hc
        have := h hc
        omega
    constructor
    · rintro ⟨ind, h⟩ t' ht'
      cases ht'
      refine key.1 ?_
      simp only [checkIndent] at h
      split at h
      · split at h
        · exact ⟨by assumption, by assumption⟩
        · cases h
      · cases h
    · intro h
      obtain ⟨h1, h2⟩ := key.2 (h t rfl)
      exact ⟨some t, by simp only [checkIndent, h1, h2, if_true]⟩

theorem step_ok (F : FloatText) (indent : Option (List Nat)) (s s' : State) (e : IonEvent) (d : WriteEventType × List Nat)
    (h : (step F indent s e).2 = .ok (d, s')) : finish F s e = .ok (d, s') ∧
      ∃ fc, fieldChunks indent.isSome s e = .ok fc ∧
        (step F indent s e).1 = delimiterChunks indent.isSome s e ++ indentChunks indent s e ++ fc ++
          (if e.eventType.beginsValue then annotationChunks e.annotations else ([], none)).1 := by
  unfold step at h ⊢
  cases hfc : fieldChunks indent.isSome s e with
  | error err => simp [hfc] at h
  | ok fc =>
    simp only [hfc] at h ⊢
    generalize (if e.eventType.beginsValue then annotationChunks e.annotations else ([], none)) = ann at h ⊢
    obtain ⟨ac, ao⟩ := ann
    cases ao with
    | some err => cases h
    | none => exact ⟨h, fc, rfl, rfl⟩

theorem finish_top (F : FloatText) (s s' : State) (e : IonEvent) (d : WriteEventType × List Nat) (h : finish F s e = .ok (d, s'))
    (ht : s.top = true ∨ s.frames = []) : s'.top = true := by
  have hset : (s.top = true ∨ s.frames = []) → s.setWritten.top = true := by
    obtain ⟨fr, top⟩ := s
    cases fr with
    | nil => intro _; rfl
    | cons f fr => rintro (h | h); exact h; cases h
  unfold finish at h
  repeat' split at h
  all_goals first
    | cases h; done
    | (simp only [Except.ok.injEq, Prod.mk.injEq] at h; rw [← h.2]; first | exact hset ht | skip)
  all_goals
    rename_i hfr _
    rcases ht with ht | ht
    · exact ht
    · rw [hfr] at ht; cases ht

theorem run_written (F : FloatText) (indent : Option (List Nat)) (evs : List IonEvent) (s s' : State) (out : List Nat)
    (h : runText F indent s evs = (out, .ok s')) (ht : s.top = true ∨ (s.frames = [] ∧ evs ≠ [])) : s'.top = true := by
  induction evs generalizing s out with
  | nil =>
    simp [runText] at h
    rw [← h.2]
    rcases ht with ht | ⟨-, ht⟩
    · exact ht
    · exact absurd rfl ht
  | cons e evs ih =>
    simp only [runText] at h
    cases hst : step F indent s e with
    | mk cs o =>
      cases o with
      | error err => simp [hst] at h
      | ok p =>
        obtain ⟨⟨t, d⟩, s1⟩ := p
        simp only [hst, Prod.mk.injEq] at h
        refine ih s1 _ (Prod.ext rfl h.2) (.inl ?_)
        refine finish_top F s s1 e (t, d) (step_ok F indent s s1 e (t, d) (by rw [hst])).1 ?_
        rcases ht with ht | ⟨ht, -⟩
        · exact .inl ht
        · exact .inr ht

/-- **C38** (indentation) When pretty-printing, every event that is accepted after another, but for `STREAM_END`, is written on
a line of its own: after a comma if it is due, a newline and as many indents as there are open containers - not counting
the one that the event closes - follows the text of the event, in which there is no newline. -/
theorem C38_pretty_indentation (F : FloatText) (hF : Faithful F) (ind : List Nat) (evs : List IonEvent) (hne : evs ≠ []) (e : IonEvent)
    (he : e.eventType ≠ .streamEnd) (out : List Nat) (s : State) (hrun : runText F (some ind) {} evs = (out, .ok s)) (out' : List Nat) (s' : State)
    (hrun' : runText F (some ind) {} (evs ++ [e]) = (out', .ok s')) :
    ∃ sep rest, (sep = [] ∨ sep = [44]) ∧ (∀ c ∈ rest, 0x20 ≤ c ∧ c ≤ 0x7E) ∧
      out' = out ++ sep ++ [10] ++ (List.replicate ((openTypes [] evs).length - (if e.eventType = .containerEnd then 1 else 0)) ind).flatten ++ rest := by
  have hf := run_frames F (some ind) evs {} s out hrun
  have htop := run_written F (some ind) evs {} s out hrun (.inr ⟨rfl, hne⟩)
  have hlen : (openTypes [] evs).length = s.frames.length := by
    have := congrArg List.length hf
    simpa using this.symm
  rw [runText_append F (some ind) evs [e] {} s out hrun] at hrun'
  simp only [runText] at hrun'
  cases hst : step F (some ind) s e with
  | mk cs o =>
    cases o with
    | error err => simp [hst] at hrun'
    | ok p =>
      obtain ⟨⟨t, d⟩, s1⟩ := p
      simp only [hst, Prod.mk.injEq] at hrun'
      obtain ⟨hfin, fc, hfc, hcs⟩ := step_ok F (some ind) s s1 e (t, d) (by rw [hst])
      rw [hst] at hcs
      simp only at hcs
      have hann : ∀ l ∈ (if e.eventType.beginsValue = true then annotationChunks e.annotations else ([], none)).1, Printable l := by
        split
        · exact print_annotations _
        · simp
      generalize (if e.eventType.beginsValue = true then annotationChunks e.annotations else ([], none)).1 = ac at hcs hann
      have hw : (s.written || !s.frames.isEmpty) = true := by
        obtain ⟨fr, top⟩ := s
        cases fr with
        | nil => simp only at htop; simp [State.written, htop]
        | cons f fr => simp
      have hind : (indentChunks (some ind) s e).flatten =
          [10] ++ (List.replicate ((openTypes [] evs).length - (if e.eventType = .containerEnd then 1 else 0)) ind).flatten := by
        rw [hlen]
        unfold indentChunks
        simp only [hw, he, ne_eq, not_false_eq_true, decide_true, Bool.and_self, if_true]
        generalize s.frames.length - (if e.eventType = .containerEnd then 1 else 0) = m
        cases m with
        | zero => simp
        | succ m => simp
      have hsep : (delimiterChunks true s e).flatten = [] ∨ (delimiterChunks true s e).flatten = [44] := by
        unfold delimiterChunks
        split
        · cases s.frames with
          | nil => left; rfl
          | cons f fr =>
            obtain ⟨ty, w⟩ := f
            cases ty <;> first | (right; rfl) | (left; rfl)
        · left; rfl
      refine ⟨_, fc.flatten ++ ac.flatten ++ d, hsep, ?_, ?_⟩
      · have h1 : Printable fc.flatten := print_flatten (print_field hfc)
        have h2 : Printable ac.flatten := print_flatten hann
        exact (h1.append h2).append (print_finish hF hfin)
      · rw [← hrun'.1, hcs]
        simp only [List.flatten_append, Option.isSome_some, hind]
        simp

end Ion.TextWriter
