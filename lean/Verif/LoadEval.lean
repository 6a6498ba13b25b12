import Verif.TextPathsLoad
import Verif.TextCalls
set_option linter.unusedSimpArgs false
/-!
# Evaluating `load` on given texts

`loadN` computes what `load` gives for a given text; it is only used for the examples that show what `load` does with wrong texts.
-/
namespace Ion.Simple
open Ion Ion.TextReader
open Ion.ManagedReader (Event Context Handler thunkEvent react)
open Ion.RawReader (Cmd)

variable {F : FloatText} {units : Bytes → List Nat} {m n : Nat}

/-- `Gets`, computed. -/
def getsN (F : FloatText) (units : Bytes → List Nat) (m n : Nat) : Nat → Context → Option Handler → Except PyErr IonEvent × TextReader.Status → List Bytes →
    Option (Except PyErr Event × Source (ManagedReader.Status TextReader.Status))
  | 0, _, _, _, _ => none
  | _ + 1, _, _, (.error err, _), _ => some (.error err, .dead)
  | i + 1, ctx, h, (.ok e, st), cs => match react ctx h e with
    | .error err => some (.error err, .dead)
    | .ok (.ask cmd ctx' h') => (sendN F units m n st cmd).bind fun r => getsN F units m n i ctx' h' r cs
    | .ok (.give ctx' h') =>
      if e.eventType.isStreamSignal then
        match cs with
        | d :: ds => (sendN F units m n st (.data d)).bind fun r => getsN F units m n i ctx' h' r ds
        | [] => if e.eventType = .incomplete then (sendN F units m n st .next).bind fun r => getsN F units m n i ctx' h' r [] else some (.ok streamEnd, .ended)
      else some (.ok (thunkEvent ctx' e), .active (.live st ctx' h') cs)

theorem getsN_sound : ∀ {i : Nat} {ctx : Context} {h : Option Handler} {r : Except PyErr IonEvent × TextReader.Status} {cs : List Bytes} {o : Except PyErr Event × Source (ManagedReader.Status TextReader.Status)},
    getsN F units m n i ctx h r cs = some o → Gets (TextReader.send F units) ctx h r cs o := by
  intro i
  induction i with
  | zero => intro ctx h r cs o hg; cases hg
  | succ i ih =>
    rintro ctx h ⟨r, st⟩ cs o hg
    have sub : ∀ {cmd : Cmd} {ctx' : Context} {h' : Option Handler} {ds : List Bytes}, (sendN F units m n st cmd).bind (fun r => getsN F units m n i ctx' h' r ds) = some o → Gets (TextReader.send F units) ctx' h' (TextReader.send F units st cmd) ds o := by
      intro cmd ctx' h' ds hs
      rw [Option.bind_eq_some_iff] at hs
      obtain ⟨r', h1, h2⟩ := hs
      rw [sendN_sound h1]
      exact ih h2
    cases r with
    | error err => simp only [getsN, Option.some.injEq] at hg; subst hg; exact .error
    | ok e =>
      simp only [getsN] at hg
      cases hr : react ctx h e with
      | error err => rw [hr] at hg; simp only [Option.some.injEq] at hg; subst hg; exact .refuse hr
      | ok act =>
        rw [hr] at hg
        cases act with
        | ask cmd ctx' h' => exact .ask hr (sub hg)
        | give ctx' h' =>
          dsimp only at hg
          by_cases hs : e.eventType.isStreamSignal = true
          · rw [if_pos hs] at hg
            cases cs with
            | cons d ds => exact .feed hr hs (sub hg)
            | nil =>
              dsimp only at hg
              by_cases hi : e.eventType = .incomplete
              · rw [if_pos hi] at hg; exact .flush hr hi (sub hg)
              · rw [if_neg hi] at hg
                simp only [Option.some.injEq] at hg
                subst hg
                refine .ended hr ?_
                revert hs hi
                cases e.eventType <;> simp [IonEventType.isStreamSignal]
          · rw [if_neg hs] at hg
            simp only [Option.some.injEq] at hg
            subst hg
            exact .give hr (by simpa using hs)

/-- `nextEvent`, computed. -/
def nextN (F : FloatText) (units : Bytes → List Nat) (m n : Nat) : Source (ManagedReader.Status TextReader.Status) → Option (Except PyErr Event × Source (ManagedReader.Status TextReader.Status))
  | .active (.live st ctx h) cs => (sendN F units m n st .next).bind fun r => getsN F units m n n ctx h r cs
  | .active .dead _ => none
  | .ended => some (.error .stopIteration, .dead)
  | .dead => some (.error .stopIteration, .dead)

theorem nextN_sound {s : Source (ManagedReader.Status TextReader.Status)} {o : Except PyErr Event × Source (ManagedReader.Status TextReader.Status)} (h : nextN F units m n s = some o) :
    nextEvent (ManagedReader.send (TextReader.send F units)) s = some o := by
  cases s with
  | ended => exact h
  | dead => exact h
  | active st cs =>
    cases st with
    | dead => cases h
    | live st ctx hd =>
      simp only [nextN, Option.bind_eq_some_iff] at h
      obtain ⟨r, h1, h2⟩ := h
      exact request_of_gets (getsN_sound h2) _ _ (sendN_sound h1)

/-- `loadLoop`, computed. -/
def loopLoadN (F : FloatText) (units : Bytes → List Nat) (m n : Nat) : Nat → IonEventType → Out → Source (ManagedReader.Status TextReader.Status) →
    Option (Except PyErr (Out × Source (ManagedReader.Status TextReader.Status)))
  | 0, _, _, _ => none
  | i + 1, endType, out, src => (nextN F units m n src).bind fun p =>
    match p.1 with
    | .error err => some (.error err)
    | .ok e =>
      if e.eventType = endType then some (.ok (out, p.2))
      else if e.eventType = .containerStart then
        match newContainer e with
        | .error err => some (.error err)
        | .ok c => (loopLoadN F units m n i .containerEnd c.1 p.2).bind fun q =>
          match q with
          | .error err => some (.error err)
          | .ok q => match out.add e (q.1.obj c.2.1 c.2.2) with
            | .error err => some (.error err)
            | .ok out' => loopLoadN F units m n i endType out' q.2
      else if e.eventType = .scalar then
        match scalarObj e with
        | .error err => some (.error err)
        | .ok o => match out.add e o with
          | .error err => some (.error err)
          | .ok out' => loopLoadN F units m n i endType out' p.2
      else loopLoadN F units m n i endType out p.2

theorem loopLoadN_sound : ∀ {i : Nat} {ty : IonEventType} {out : Out} {src : Source (ManagedReader.Status TextReader.Status)} {r : Except PyErr (Out × Source (ManagedReader.Status TextReader.Status))},
    loopLoadN F units m n i ty out src = some r → loadLoop (ManagedReader.send (TextReader.send F units)) ty out src = some r := by
  intro i
  induction i with
  | zero => intro ty out src r h; cases h
  | succ i ih =>
    intro ty out src r h
    rw [loadLoop.eq_def]
    simp only [loopLoadN, Option.bind_eq_some_iff] at h
    obtain ⟨⟨y, t⟩, h1, h2⟩ := h
    rw [nextN_sound h1]
    simp only [bind, Option.bind_some]
    cases y with
    | error err => exact h2
    | ok e =>
      dsimp only at h2 ⊢
      by_cases c1 : e.eventType = ty
      · rw [if_pos c1] at h2 ⊢; exact h2
      · rw [if_neg c1] at h2 ⊢
        by_cases c2 : e.eventType = .containerStart
        · rw [if_pos c2] at h2 ⊢
          cases hc : newContainer e with
          | error err => rw [hc] at h2; exact h2
          | ok c =>
            rw [hc] at h2
            dsimp only at h2 ⊢
            rw [Option.bind_eq_some_iff] at h2
            obtain ⟨z, h3, h4⟩ := h2
            rw [ih h3]
            simp only [Option.bind_some]
            cases z with
            | error err => exact h4
            | ok p =>
              dsimp only at h4 ⊢
              cases ha : out.add e (p.1.obj c.2.1 c.2.2) with
              | error err => rw [ha] at h4; exact h4
              | ok out2 => rw [ha] at h4; exact ih h4
        · rw [if_neg c2] at h2 ⊢
          by_cases c3 : e.eventType = .scalar
          · rw [if_pos c3] at h2 ⊢
            cases hc : scalarObj e with
            | error err => rw [hc] at h2; exact h2
            | ok v =>
              rw [hc] at h2
              dsimp only at h2 ⊢
              cases ha : out.add e v with
              | error err => rw [ha] at h2; exact h2
              | ok out2 => rw [ha] at h2; exact ih h2
          · rw [if_neg c3] at h2 ⊢; exact ih h2

/-- The exception of `load`, computed. -/
def loadErr (F : FloatText) (units : Bytes → List Nat) (m n : Nat) (cs : List Bytes) : Option PyErr :=
  match loopLoadN F units m n n .streamEnd (.list []) (.active (.live .fresh { catalog := [] } none) cs) with
  | some (.error err) => some err
  | _ => none

theorem loadErr_sound {single : Bool} {cs : List Bytes} {err : PyErr} (h : loadErr F units m n cs = some err) : loadText F units [] single cs = some (.error err) := by
  unfold loadErr at h
  split at h
  · rename_i h1
    simp only [Option.some.injEq] at h
    subst h
    simp only [loadText, loadFrom, loopLoadN_sound h1, bind, Option.bind_some]
  · cases h

/-- The number of values that `load` returns, computed. -/
def loadLen (F : FloatText) (units : Bytes → List Nat) (m n : Nat) (cs : List Bytes) : Option Nat :=
  match loopLoadN F units m n n .streamEnd (.list []) (.active (.live .fresh { catalog := [] } none) cs) with
  | some (.ok p) => some p.1.values.length
  | _ => none

theorem loadLen_sound {cs : List Bytes} {k : Nat} (h : loadLen F units m n cs = some k) : ∃ vs, loadText F units [] false cs = some (.ok vs) ∧ vs.length = k := by
  unfold loadLen at h
  split at h
  · rename_i p h1
    simp only [Option.some.injEq] at h
    exact ⟨p.1.values, by simp [loadText, loadFrom, loopLoadN_sound h1], h⟩
  · cases h

end Ion.Simple
