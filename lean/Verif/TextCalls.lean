import Verif.TextReader
set_option linter.unusedSimpArgs false
/-!
# Evaluating calls of the text reader

`callsN` computes the answers of the text reader to given calls; it is only used for examples and for the theorems that show where the reader
deviates from what is expected.
-/
namespace Ion.TextReader
open Ion
open Ion.RawReader (Cmd)

/-- Any calls, in any order: the events, until an exception. -/
def sends (F : FloatText) (units : Bytes → List Nat) (st : Status) : List Cmd → List IonEvent
  | [] => []
  | cmd :: cmds => match send F units st cmd with
    | (.ok e, st') => e :: sends F units st' cmds
    | (.error _, _) => []

/-- The reader after some calls. -/
def after (F : FloatText) (units : Bytes → List Nat) (st : Status) : List Cmd → Status
  | [] => st
  | cmd :: cmds => after F units (send F units st cmd).2 cmds

/-- `advance` in at most `n` steps. -/
def advanceN (F : FloatText) : Nat → Act → BufferQueue Nat → Option Outcome
  | 0, _, _ => none
  | n + 1, a, q => match a with
    | .err e => some (.error e)
    | .emit e s => some (.event e s q)
    | .read complete canFlush k =>
      if q.size = 0 then some (.block complete canFlush k q)
      else match q.readByte with
        | .error err => some (.error err)
        | .ok (c, q) => advanceN F n (k c) q
    | .unread c a => match q.unread c with
      | (.error err, _) => some (.error err)
      | (.ok (), q) => advanceN F n a q
    | .wait a => if q.size = 0 then some (.waiting a q) else some (.error .assertionError)
    | .go s => advanceN F n (next F s) q

theorem advanceN_sound {F : FloatText} : ∀ {n : Nat} {a : Act} {q : BufferQueue Nat} {o : Outcome}, advanceN F n a q = some o → advance F a q = some o := by
  intro n
  induction n with
  | zero => intro a q o h; cases h
  | succ n ih =>
    intro a q o h
    rw [advance.eq_def]
    cases a with
    | err e => exact h
    | emit e s => exact h
    | read complete canFlush k =>
      simp only [advanceN] at h ⊢
      by_cases hq : q.size = 0
      · simpa [hq] using h
      · simp only [hq, if_false] at h ⊢
        cases hr : q.readByte with
        | error e => simpa [hr] using h
        | ok p => rw [hr] at h; exact ih h
    | unread c a =>
      simp only [advanceN] at h ⊢
      cases hu : q.unread c with
      | mk r q' =>
        rw [hu] at h
        cases r with
        | error e => exact h
        | ok _ => exact ih h
    | wait a => exact h
    | go s => exact ih (by simpa only [advanceN] using h)

/-- `deliver`, with at most `n` events and `m` steps for each; `none` if that is not enough. -/
def deliverN (F : FloatText) (m : Nat) (depth : Int) : Nat → Bool → Act → BufferQueue Nat → Option (Option (Except PyErr IonEvent × Status))
  | 0, _, _, _ => none
  | n + 1, skipping, a, q => match advanceN F m a q with
    | none => none
    | some (.error err) => some (some (.error err, .dead))
    | some (.block complete canFlush k q) =>
      if skipping && complete then some none
      else some (some (.ok (if complete then ION_STREAM_END_EVENT else ION_STREAM_INCOMPLETE_EVENT), .blocked complete canFlush k q depth skipping))
    | some (.waiting a q) => if skipping then some none else some (some (.ok ION_STREAM_END_EVENT, .waiting a q depth skipping))
    | some (.event e s q) =>
      if skipping then
        if e.eventType = .containerEnd ∧ e.depth.getD 0 ≤ depth then some (some (.ok e, .paused e s q depth))
        else deliverN F m depth n true (.go s) q
      else if e.eventType = .containerStart ∨ e.eventType = .containerEnd then
        some (some (.ok e, .paused e s q (e.depth.getD 0)))
      else some (some (.ok e, .paused e s q depth))

theorem deliverN_sound {F : FloatText} {m : Nat} {depth : Int} : ∀ {n : Nat} {skipping : Bool} {a : Act} {q : BufferQueue Nat} {r : Option (Except PyErr IonEvent × Status)},
    deliverN F m depth n skipping a q = some r → deliver F depth skipping a q = r := by
  intro n
  induction n with
  | zero => intro skipping a q r h; cases h
  | succ n ih =>
    intro skipping a q r h
    rw [deliver.eq_def]
    simp only [deliverN] at h
    cases ha : advanceN F m a q with
    | none => rw [ha] at h; cases h
    | some o =>
      rw [ha] at h
      rw [advanceN_sound ha]
      simp only [Option.bind_eq_bind, Option.bind_some]
      cases o with
      | error e => simpa using h
      | block complete canFlush k q =>
        dsimp only at h ⊢
        split at h
        · rename_i hc; rw [if_pos hc]; simpa using h
        · rename_i hc; rw [if_neg hc]; simpa using h
      | waiting a q =>
        dsimp only at h ⊢
        split at h
        · rename_i hc; rw [if_pos hc]; simpa using h
        · rename_i hc; rw [if_neg hc]; simpa using h
      | event e s q =>
        dsimp only at h ⊢
        split at h
        · rename_i hc
          rw [if_pos hc]
          split at h
          · rename_i hc; rw [if_pos hc]; simpa using h
          · rename_i hc; rw [if_neg hc]; exact ih h
        · rename_i hc
          rw [if_neg hc]
          split at h
          · rename_i hc; rw [if_pos hc]; simpa using h
          · rename_i hc; rw [if_neg hc]; simpa using h

/-- `send`, computed likewise. -/
def sendN (F : FloatText) (units : Bytes → List Nat) (m n : Nat) (st : Status) (cmd : Cmd) : Option (Except PyErr IonEvent × Status) :=
  match st, cmd with
  | .dead, _ => some (.error .stopIteration, .dead)
  | .fresh, .next => (deliverN F m 0 n false (.go {}) .empty).map orDiverge
  | .fresh, _ => some (.error .typeError, .dead)
  | .paused _ _ _ _, .data _ => some (.error .typeError, .dead)
  | .paused _ s q depth, .next => (deliverN F m depth n false (.go s) q).map orDiverge
  | .paused e s q depth, .skip =>
    if e.depth = some 0 ∧ e.eventType ≠ .containerStart then some (.error .typeError, .dead)
    else (deliverN F m depth n true (.go s) q).map orDiverge
  | .blocked complete canFlush k q depth skipping, .data d =>
    if units d = [] then some (.error .valueError, .dead)
    else (deliverN F m depth n skipping (.read complete canFlush k) (q.extend (units d))).map orDiverge
  | .blocked complete canFlush k q depth skipping, .next =>
    if complete then some (.error .typeError, .dead)
    else if canFlush then (deliverN F m depth n skipping (.read complete canFlush k) (q.extend [EOF])).map orDiverge
    else some (.error .ionException, .dead)
  | .blocked _ _ _ _ _ _, .skip => some (.error .typeError, .dead)
  | .waiting a q depth skipping, .data d =>
    if units d = [] then some (.error .valueError, .dead)
    else (deliverN F m depth n skipping a (q.extend (units d))).map orDiverge
  | .waiting _ _ _ _, _ => some (.error .typeError, .dead)

theorem sendN_sound {F : FloatText} {units : Bytes → List Nat} {m n : Nat} {st : Status} {cmd : Cmd} {r : Except PyErr IonEvent × Status}
    (h : sendN F units m n st cmd = some r) : send F units st cmd = r := by
  have key : ∀ {depth : Int} {skipping : Bool} {a : Act} {q : BufferQueue Nat}, (deliverN F m depth n skipping a q).map orDiverge = some r →
      orDiverge (deliver F depth skipping a q) = r := by
    intro depth skipping a q h
    cases hd : deliverN F m depth n skipping a q with
    | none => rw [hd] at h; cases h
    | some r' =>
      rw [hd] at h
      rw [deliverN_sound hd]
      simpa using h
  have now : ∀ {r' : Except PyErr IonEvent × Status}, some r' = some r → r' = r := fun h => by simpa using h
  cases st with
  | fresh => cases cmd <;> first | exact key h | exact now h
  | paused e s q depth =>
    cases cmd with
    | next => exact key h
    | data d => exact now h
    | skip =>
      simp only [sendN, send] at h ⊢
      split at h
      · rename_i hc; rw [if_pos hc]; exact now h
      · rename_i hc; rw [if_neg hc]; exact key h
  | blocked complete canFlush k q depth skipping =>
    cases cmd with
    | next =>
      simp only [sendN, send] at h ⊢
      split at h
      · rename_i hc; rw [if_pos hc]; exact now h
      · rename_i hc
        rw [if_neg hc]
        split at h
        · rename_i hc; rw [if_pos hc]; exact key h
        · rename_i hc; rw [if_neg hc]; exact now h
    | data d =>
      simp only [sendN, send] at h ⊢
      split at h
      · rename_i hc; rw [if_pos hc]; exact now h
      · rename_i hc; rw [if_neg hc]; exact key h
    | skip => exact now h
  | waiting a q depth skipping =>
    cases cmd with
    | data d =>
      simp only [sendN, send] at h ⊢
      split at h
      · rename_i hc; rw [if_pos hc]; exact now h
      · rename_i hc; rw [if_neg hc]; exact key h
    | next => exact now h
    | skip => exact now h
  | dead => exact now h

/-- The answers to calls, until an exception. -/
def callsN (F : FloatText) (units : Bytes → List Nat) (m n : Nat) (st : Status) : List Cmd → Option (List (Except PyErr IonEvent))
  | [] => some []
  | cmd :: cmds => match sendN F units m n st cmd with
    | none => none
    | some (.error e, _) => some [.error e]
    | some (.ok e, st') => (callsN F units m n st' cmds).map (.ok e :: ·)

/-- The answers to calls, until an exception. -/
def calls (F : FloatText) (units : Bytes → List Nat) (st : Status) : List Cmd → List (Except PyErr IonEvent)
  | [] => []
  | cmd :: cmds => match send F units st cmd with
    | (.error e, _) => [.error e]
    | (.ok e, st') => .ok e :: calls F units st' cmds

theorem callsN_sound {F : FloatText} {units : Bytes → List Nat} {m n : Nat} {cmds : List Cmd} : ∀ {st : Status} {l : List (Except PyErr IonEvent)},
    callsN F units m n st cmds = some l → calls F units st cmds = l := by
  induction cmds with
  | nil => intro st l h; simpa [callsN, calls] using h
  | cons cmd cmds ih =>
    intro st l h
    simp only [callsN] at h
    cases hs : sendN F units m n st cmd with
    | none => rw [hs] at h; cases h
    | some p =>
      rw [hs] at h
      simp only [calls, sendN_sound hs]
      obtain ⟨r, st'⟩ := p
      cases r with
      | error e => simpa using h
      | ok e =>
        cases hc : callsN F units m n st' cmds with
        | none => simp [hc] at h
        | some l' =>
          simp only [hc, Option.map_some, Option.some.injEq] at h
          rw [← h, ← ih hc]

/-- The events of calls. -/
theorem sends_of_calls {F : FloatText} {units : Bytes → List Nat} {cmds : List Cmd} : ∀ {st : Status},
    sends F units st cmds = (calls F units st cmds).filterMap Except.toOption := by
  induction cmds with
  | nil => intro st; rfl
  | cons cmd cmds ih =>
    intro st
    simp only [sends, calls]
    split
    · rename_i h; rw [h]; simp [Except.toOption, ih]
    · rename_i h; rw [h]; rfl
end Ion.TextReader
