import Verif.Simple
import Verif.RawReaderLemmas
/-!
# Every `load` of binary data ends

A potential of the binary reader which no step raises, which every event lowers, and which only new data raise.  With it: the
managed reader answers every request, and `load` comes to an end.
-/
set_option linter.unusedSimpArgs false
namespace Ion.RawReader
open Ion

/-- The part of the potential that depends on the handler that runs next. -/
def taskPot : Task → Nat
  | .ivmTail => 3
  | .scalarBody .. => 3
  | .annData .. => 3
  | _ => 1

def ctlPot : Ctl → Nat
  | .read _ _ _ t => taskPot t
  | .resume t => taskPot t
  | _ => 1

/-- The potential of a machine state. -/
def pot (m : Machine) : Nat := 10 * avail m.queue + m.stack.length + ctlPot m.ctl

/-- The potential does not rise, and an event lowers it. -/
def PotLe (n : Nat) : Outcome → Prop
  | .cont m => pot m ≤ n
  | .emit e q st => e.eventType.isStreamSignal = false ∧ 10 * avail q + st.length + 1 < n
  | .block _ m => (∃ l s a t, m.ctl = .read l s a t) ∧ pot m ≤ n
  | .error _ => True

theorem startRead_pot {q : Queue} {stack : List Frame} {depth : Nat} {limit : Option Int} {length : Int} {skip atEnd : Bool} {task : Task} {n : Nat}
    (h : 10 * avail q + stack.length + taskPot task ≤ n) : PotLe n (startRead q stack depth limit length skip atEnd task) := by
  unfold startRead
  dsimp only
  split
  · trivial
  · split
    · trivial
    · split
      · split
        · trivial
        · rename_i hs
          have := skip_avail hs
          simp only [PotLe, pot, ctlPot]; omega
      · simp only [PotLe, pot, ctlPot]; omega

theorem scalarEvent_type {ctx : Ctx} {q : Queue} {ty : IonType} {v : Except PyErr (Option PyVal)} {e : IonEvent}
    (h : scalarEvent ctx q ty v = .ok e) : e.eventType.isStreamSignal = false := by
  unfold scalarEvent at h
  dsimp only at h
  repeat' split at h
  all_goals first | (cases h; done) | (cases h; rfl)

theorem finishScalar_pot {q : Queue} {stack : List Frame} {ctx : Ctx} {k : ScalarKind} {data : Bytes} {n : Nat}
    (h : 10 * avail q + stack.length + 1 < n) : PotLe n (finishScalar q stack ctx k data) := by
  unfold finishScalar
  repeat' split
  all_goals first | trivial | exact ⟨scalarEvent_type (by assumption), h⟩

theorem containerStart_pot {q : Queue} {stack : List Frame} {ctx : Ctx} {ty : IonType} {len n : Nat}
    (h : 10 * avail q + stack.length + 2 < n) : PotLe n (containerStart q stack ctx ty len) := by
  unfold containerStart
  dsimp only
  split
  · trivial
  · exact ⟨rfl, by simp only [List.length_cons]; omega⟩

theorem lengthed_pot {q : Queue} {stack : List Frame} {ctx : Ctx} {h : LenHandler} {len n : Nat}
    (hn : 10 * avail q + stack.length + 3 ≤ n) : PotLe n (lengthed q stack ctx h len) := by
  cases h with
  | nop =>
    simp only [lengthed]
    split
    · trivial
    · split
      · exact startRead_pot (by simp only [taskPot]; omega)
      · simp only [PotLe, pot, ctlPot]; omega
  | scalar k =>
    simp only [lengthed]
    split
    · exact finishScalar_pot (by omega)
    · exact startRead_pot (by simp only [taskPot]; omega)
  | container ty => exact containerStart_pot (by omega)
  | annotation =>
    simp only [lengthed]
    split
    · trivial
    · simp only [PotLe, pot, ctlPot]; omega

theorem handle_pot {q : Queue} {stack : List Frame} {ctx : Ctx} {h : Handler} {n : Nat}
    (hn : 10 * avail q + stack.length + 3 ≤ n) : PotLe n (handle q stack ctx h) := by
  cases h with
  | invalid => trivial
  | ivm =>
    simp only [handle]
    split
    · trivial
    · exact startRead_pot (by simp only [taskPot]; omega)
  | static ty v =>
    simp only [handle]
    split
    · trivial
    · exact ⟨scalarEvent_type (by assumption), by omega⟩
  | fixed h l => exact lengthed_pot hn
  | «variable» h => simp only [handle, PotLe, pot, ctlPot]; omega
  | ordered => simp only [handle, PotLe, pot, ctlPot]; omega

theorem containerValue_pot {q : Queue} {f : Frame} {stack : List Frame} {fld : Option SymbolToken} {n : Nat}
    (hn : 10 * avail q + (stack.length + 1) + 1 ≤ n) : PotLe n (containerValue q f stack fld) :=
  startRead_pot (by simp only [taskPot, List.length_cons]; omega)

theorem useVar_pot {q : Queue} {stack : List Frame} {ctx : Ctx} {v : Nat} {use : VarUse} {n : Nat}
    (hn : 10 * avail q + stack.length + 3 ≤ n) : PotLe n (useVar q stack ctx v use) := by
  cases use with
  | field =>
    simp only [useVar]
    split
    · trivial
    · exact containerValue_pot (by simp only [List.length_cons] at hn; omega)
  | length h => exact lengthed_pot hn
  | ordered =>
    simp only [useVar]
    split
    · trivial
    · exact containerStart_pot (by omega)
  | annLength =>
    simp only [useVar]
    split
    · trivial
    · exact startRead_pot (by simp only [taskPot]; omega)

theorem resume_pot (q : Queue) (stack : List Frame) (task : Task) :
    PotLe (10 * avail q + stack.length + taskPot task) (resume q stack task) := by
  cases task with
  | typeOctet ctx b =>
    simp only [resume]
    split
    · trivial
    · rename_i hb
      have := readByte_avail hb
      split
      · trivial
      · exact handle_pot (by simp only [taskPot]; omega)
  | varByte ctx value use =>
    simp only [resume]
    split
    · trivial
    · rename_i hb
      have := readByte_avail hb
      split
      · exact useVar_pot (by simp only [taskPot]; omega)
      · simp only [PotLe, pot, ctlPot, taskPot]; omega
  | ivmTail =>
    simp only [resume]
    split
    · trivial
    · rename_i hr
      have := read_avail hr
      split
      · trivial
      · exact ⟨rfl, by simp only [taskPot]; omega⟩
  | scalarBody ctx k n =>
    simp only [resume]
    split
    · trivial
    · rename_i hr
      have := read_avail hr
      exact finishScalar_pot (by simp only [taskPot]; omega)
  | annData ctx n =>
    simp only [resume]
    split
    · trivial
    · rename_i hr
      have := read_avail hr
      split
      · trivial
      · split
        · trivial
        · split
          · trivial
          · exact startRead_pot (by simp only [taskPot]; omega)
  | loop => simp only [resume, PotLe, pot, ctlPot, taskPot]; omega

/-- One step. -/
theorem micro_pot (m : Machine) : PotLe (pot m) (micro m) := by
  unfold micro
  split
  · rename_i hc
    unfold containerLoop
    split
    · trivial
    · rename_i f st hs
      split
      · exact ⟨rfl, by simp only [pot, hc, hs, ctlPot, List.length_cons]; omega⟩
      · split
        · simp only [PotLe, pot, hc, hs, ctlPot, List.length_cons]; omega
        · exact containerValue_pot (by simp only [pot, hc, hs, ctlPot, List.length_cons]; omega)
  · rename_i hc
    split
    · exact startRead_pot (by simp only [pot, hc, ctlPot, taskPot]; omega)
    · simp only [PotLe, pot, hc, ctlPot, taskPot]; omega
  · rename_i hc
    split
    · simp only [PotLe, pot, hc, ctlPot]; omega
    · exact ⟨⟨_, _, _, _, hc⟩, Nat.le_refl _⟩
  · rename_i task hc
    have := resume_pot m.queue m.stack task
    simpa only [pot, hc, ctlPot] using this

theorem potLe_mono {a b : Nat} {o : Outcome} (h : PotLe a o) (hab : a ≤ b) : PotLe b o := by
  cases o with
  | cont m => exact Nat.le_trans h hab
  | emit e q st => exact ⟨h.1, Nat.lt_of_lt_of_le h.2 hab⟩
  | block a m => exact ⟨h.1, Nat.le_trans h.2 hab⟩
  | error e => trivial

/-- A run. -/
theorem run_pot (m : Machine) : PotLe (pot m) (run m) := by
  induction hn : measure m using Nat.strongRecOn generalizing m with
  | _ n ih =>
    have hm := micro_pot m
    rw [run_eq]
    cases ho : micro m with
    | cont m' =>
      rw [ho] at hm
      have := micro_decreases ho
      exact potLe_mono (ih (measure m') (by omega) m' rfl) hm
    | emit e q st => rw [ho] at hm; exact hm
    | block a m' => rw [ho] at hm; exact hm
    | error e => trivial

/-- The potential of a reader between two requests. -/
def statusPot : Status → Nat
  | .fresh q st => 10 * avail q + st.length + 1
  | .ready q st _ => 10 * avail q + st.length + 1
  | .waiting q st _ _ _ t => 10 * avail q + st.length + taskPot t
  | .dead => 0

/-- What is known of an answer: an event that is not a stream signal has lowered the potential; a stream signal has no depth, and
only data are accepted after it. -/
def AnswerPot (n : Nat) (r : Except PyErr IonEvent × Status) : Prop :=
  match r.1 with
  | .error _ => True
  | .ok e => (e.eventType.isStreamSignal = true ∧ e.depth = none ∧ statusPot r.2 ≤ n ∧ ∃ q st l s a t, r.2 = .waiting q st l s a t) ∨
    (e.eventType.isStreamSignal = false ∧ statusPot r.2 < n)

theorem deliver_pot {n : Nat} {o : Outcome} (h : PotLe n o) : AnswerPot n (deliver o) := by
  cases o with
  | cont m => trivial
  | emit e q st => exact Or.inr h
  | error e => trivial
  | block a m =>
    obtain ⟨⟨l, s, b, t, hm⟩, hp⟩ := h
    simp only [deliver, hm]
    refine Or.inl ⟨?_, ?_, ?_, _, _, _, _, _, _, rfl⟩
    · cases a <;> rfl
    · cases a <;> rfl
    · simpa only [pot, hm, ctlPot, statusPot] using hp

/-- The number of bytes that come with a request. -/
def cmdBytes : Cmd → Nat
  | .data d => d.length
  | _ => 0

theorem avail_extend (q : Queue) (d : Bytes) : avail (q.extend d) ≤ avail q + d.length := by
  unfold BufferQueue.extend
  · simp only [avail, List.flatten_append, List.flatten_cons, List.flatten_nil, List.length_append, List.length_nil]; omega

theorem feed_avail {q : Queue} {l : Int} {sk : Bool} {d : Bytes} : avail (feed q l sk d).1 ≤ avail q + d.length := by
  unfold feed
  dsimp only
  split
  · split
    · have := avail_extend q (d.drop (d.length - (l - d.length).natAbs))
      simp only [List.length_drop] at this
      simp only [avail] at this ⊢
      omega
    · simp only [avail]; omega
  · exact avail_extend q d

/-- One request to the binary reader, in any state. -/
theorem send_pot (st : Status) (cmd : Cmd) : AnswerPot (statusPot st + 10 * cmdBytes cmd) (send st cmd) := by
  have key : ∀ {m : Machine} {n : Nat}, pot m ≤ n → AnswerPot n (deliver (run m)) := fun h => deliver_pot (potLe_mono (run_pot _) h)
  cases st with
  | dead => trivial
  | fresh q stack =>
    cases cmd with
    | next => exact key (Nat.le_refl _)
    | _ => trivial
  | ready q stack top =>
    cases cmd with
    | data d => trivial
    | next => exact key (Nat.le_refl _)
    | skip =>
      simp only [send]
      split
      · trivial
      · split
        · trivial
        · split
          · trivial
          · trivial
          · rename_i f st hs rem hr
            have hp := startRead_pot (q := q) (stack := f :: st) (depth := f.depth) (limit := f.limit) (length := rem) (skip := true) (atEnd := false) (task := .loop) (n := statusPot (.ready q (f :: st) top) + 10 * cmdBytes .skip)
              (Nat.le_refl _)
            split
            · rename_i m hm
              rw [hm] at hp
              exact key hp
            · exact deliver_pot hp
  | waiting q stack l sk a t =>
    cases cmd with
    | data d =>
      simp only [send]
      split
      · trivial
      · refine key ?_
        have := feed_avail (q := q) (l := l) (sk := sk) (d := d)
        simp only [pot, ctlPot, statusPot, cmdBytes]
        omega
    | _ => trivial

end Ion.RawReader

namespace Ion.ManagedReader
open Ion Ion.RawReader

/-- A handler sends no data. -/
def Asks : Except PyErr Reply → Prop
  | .ok (.ask c _) => cmdBytes c = 0
  | _ => True

theorem handle_asks' (ctx : Context) (h : Handler) (e : IonEvent) : Asks (handle ctx h e) := by
  unfold handle
  split
  · rfl
  · split
    · unfold onTable inheritTable
      dsimp only
      repeat' split
      all_goals first | trivial | rfl
    · unfold onSymbols
      repeat' split
      all_goals first | trivial | rfl
    · unfold onImports
      repeat' split
      all_goals first | trivial | rfl
    · unfold onDesc endDesc
      repeat' split
      all_goals first | trivial | rfl

theorem handle_asks {ctx : Context} {h h' : Handler} {e : IonEvent} {c : Cmd} (hr : handle ctx h e = .ok (.ask c h')) : cmdBytes c = 0 := by
  have := handle_asks' ctx h e
  rw [hr] at this
  exact this

theorem onUser_asks {ctx ctx' : Context} {h h' : Option Handler} {e : IonEvent} {c : Cmd} (hr : onUser ctx h e = .ok (.ask c ctx' h')) :
    cmdBytes c = 0 ∧ e.depth = some 0 := by
  unfold onUser at hr
  repeat' split at hr
  all_goals first | (cases hr; done) | (cases hr; exact ⟨rfl, by assumption⟩)

/-- The managed reader asks only after events that are no stream signals, and sends no data by itself. -/
theorem react_asks {ctx ctx' : Context} {h h' : Option Handler} {e : IonEvent} {c : Cmd} (hr : react ctx h e = .ok (.ask c ctx' h')) :
    cmdBytes c = 0 ∧ (e.eventType.isStreamSignal = true → e.depth = none → False) := by
  unfold react at hr
  split at hr
  · split at hr
    · obtain ⟨h1, h2⟩ := onUser_asks hr
      exact ⟨h1, fun _ h3 => by rw [h2] at h3; cases h3⟩
    · rename_i hs
      split at hr
      · cases hr
      · rename_i hh
        cases hr
        exact ⟨handle_asks hh, fun h3 _ => hs h3⟩
      · cases hr
        exact ⟨rfl, fun h3 _ => hs h3⟩
  · obtain ⟨h1, h2⟩ := onUser_asks hr
    exact ⟨h1, fun _ h3 => by rw [h2] at h3; cases h3⟩

/-- The potential of the managed reader. -/
def managedPot : Status RawReader.Status → Nat
  | .live r _ _ => statusPot r
  | .dead => 0

/-- What is known of an answer of the managed reader. -/
def ManagedAnswer (n : Nat) (r : Except PyErr Event × Status RawReader.Status) : Prop :=
  match r.1 with
  | .error _ => True
  | .ok e => (e.eventType.isStreamSignal = true ∧ managedPot r.2 ≤ n ∧ ∃ q st l s a t ctx h, r.2 = .live (.waiting q st l s a t) ctx h) ∨
    (e.eventType.isStreamSignal = false ∧ managedPot r.2 < n)

/-- One request to the managed reader, in any state: it is answered. -/
theorem send_pot (n : Nat) : ∀ (st : Status RawReader.Status) (cmd : Cmd), managedPot st + 10 * cmdBytes cmd ≤ n →
    ∃ r, ManagedReader.send RawReader.send st cmd = some r ∧ ManagedAnswer n r := by
  induction n using Nat.strongRecOn with
  | _ n ih =>
    intro st cmd hn
    cases st with
    | dead => rw [ManagedReader.send]; exact ⟨_, rfl, trivial⟩
    | live r ctx h =>
      rw [ManagedReader.send]
      have hp := RawReader.send_pot r cmd
      cases hs : RawReader.send r cmd with
      | mk a r' =>
        rw [hs] at hp
        cases a with
        | error err => exact ⟨_, rfl, trivial⟩
        | ok e =>
          dsimp only
          cases hx : react ctx h e with
          | error err => exact ⟨_, rfl, trivial⟩
          | ok act =>
            simp only [managedPot] at hn
            cases act with
            | give ctx' h' =>
              refine ⟨_, rfl, ?_⟩
              rcases hp with ⟨h1, -, h2, q, st, l, s, a, t, h3⟩ | ⟨h1, h2⟩
              · refine Or.inl ⟨h1, ?_, q, st, l, s, a, t, ctx', h', ?_⟩
                · simp only [managedPot]; simp only at h2; omega
                · simp only at h3; rw [h3]
              · refine Or.inr ⟨h1, ?_⟩
                simp only [managedPot]; simp only at h2; omega
            | ask c ctx' h' =>
              obtain ⟨hc, hq⟩ := react_asks hx
              rcases hp with ⟨h1, h0, -⟩ | ⟨h1, h2⟩
              · exact (hq h1 h0).elim
              · simp only at h2
                obtain ⟨o, ho, ha⟩ := ih (statusPot r') (by omega) (.live r' ctx' h') c (by simp only [managedPot]; omega)
                refine ⟨o, ho, ?_⟩
                unfold ManagedAnswer at ha ⊢
                split
                · trivial
                · rename_i hoe
                  rw [hoe] at ha
                  rcases ha with ⟨g1, g2, g3⟩ | ⟨g1, g2⟩
                  · exact Or.inl ⟨g1, by omega, g3⟩
                  · exact Or.inr ⟨g1, by omega⟩

end Ion.ManagedReader

namespace Ion.Simple
open Ion Ion.RawReader Ion.ManagedReader

abbrev bstep := ManagedReader.send RawReader.send

/-- The potential of the source of `load`. -/
def sourcePot : Source (Status RawReader.Status) → Nat
  | .active r cs => managedPot r + 10 * cs.flatten.length + 2
  | .ended => 1
  | .dead => 0

/-- What is known of an answer of the blocking reader. -/
def SourceAnswer (n : Nat) (p : Except PyErr ManagedReader.Event × Source (Status RawReader.Status)) : Prop :=
  match p.1 with
  | .error _ => True
  | .ok _ => sourcePot p.2 < n

theorem await_ends (cs : List Bytes) : ∀ (n : Nat) (p : Except PyErr ManagedReader.Event × Status RawReader.Status), ManagedAnswer n p →
    ∃ o, awaitEvent bstep p.1 p.2 cs = some o ∧ SourceAnswer (n + 10 * cs.flatten.length + 2) o := by
  induction cs with
  | nil =>
    intro n p hp
    obtain ⟨a, st⟩ := p
    cases a with
    | error err => rw [awaitEvent.eq_def]; exact ⟨_, rfl, trivial⟩
    | ok e =>
      rw [awaitEvent.eq_def]
      dsimp only
      rcases hp with ⟨h1, h2, q, fs, l, s, b, t, ctx, h, h3⟩ | ⟨h1, h2⟩
      · rw [if_pos h1]
        split
        · simp only at h3
          subst h3
          have : bstep (.live (.waiting q fs l s b t) ctx h) .next = some (.error .typeError, .dead) := by
            unfold bstep; rw [ManagedReader.send]; rfl
          rw [this]
          simp only [Option.bind_eq_bind, Option.bind_some]
          rw [awaitEvent.eq_def]
          exact ⟨_, rfl, trivial⟩
        · exact ⟨_, rfl, by simp only [SourceAnswer, sourcePot]; omega⟩
      · rw [if_neg (by simp [h1])]
        exact ⟨_, rfl, by simp only [SourceAnswer, sourcePot]; simp only at h2; omega⟩
  | cons d ds ih =>
    intro n p hp
    obtain ⟨a, st⟩ := p
    cases a with
    | error err => rw [awaitEvent.eq_def]; exact ⟨_, rfl, trivial⟩
    | ok e =>
      rw [awaitEvent.eq_def]
      dsimp only
      rcases hp with ⟨h1, h2, -⟩ | ⟨h1, h2⟩
      · rw [if_pos h1]
        simp only at h2
        obtain ⟨o, ho, ha⟩ := ManagedReader.send_pot (n + 10 * d.length) st (.data d) (by simp only [cmdBytes]; omega)
        rw [show bstep st (.data d) = some o from ho]
        obtain ⟨o', ho', ha'⟩ := ih _ _ ha
        refine ⟨o', ho', ?_⟩
        simpa only [List.flatten_cons, List.length_append, Nat.mul_add, Nat.add_assoc] using ha'
      · rw [if_neg (by simp [h1])]
        exact ⟨_, rfl, by simp only [SourceAnswer, sourcePot]; simp only at h2; omega⟩

theorem next_ends (src : Source (Status RawReader.Status)) : ∃ o, nextEvent bstep src = some o ∧ SourceAnswer (sourcePot src) o := by
  cases src with
  | active r cs =>
    obtain ⟨o, ho, ha⟩ := ManagedReader.send_pot (managedPot r) r .next (by simp only [cmdBytes]; omega)
    obtain ⟨o', ho', ha'⟩ := await_ends cs _ _ ha
    refine ⟨o', ?_, ha'⟩
    simp only [nextEvent]
    rw [show bstep r .next = some o from ho]
    exact ho'
  | ended => exact ⟨_, rfl, trivial⟩
  | dead => exact ⟨_, rfl, trivial⟩

theorem loop_ends (n : Nat) : ∀ (src : Source (Status RawReader.Status)), sourcePot src ≤ n → ∀ (endType : IonEventType) (out : Out),
    ∃ r, loadLoop bstep endType out src = some r ∧ ∀ p, r = .ok p → sourcePot p.2 < n := by
  induction n using Nat.strongRecOn with
  | _ n ih =>
    intro src hn endType out
    rw [loadLoop]
    obtain ⟨o, ho, ha⟩ := next_ends src
    obtain ⟨a, src'⟩ := o
    rw [ho]
    simp only [Option.bind_eq_bind, Option.bind_some]
    cases a with
    | error err => exact ⟨_, rfl, fun p hp => by cases hp⟩
    | ok e =>
      simp only [SourceAnswer] at ha
      have again : ∀ out', ∃ r, loadLoop bstep endType out' src' = some r ∧ ∀ p, r = .ok p → sourcePot p.2 < n := by
        intro out'
        obtain ⟨r, hr, hp⟩ := ih (sourcePot src') (by omega) src' (Nat.le_refl _) endType out'
        exact ⟨r, hr, fun p h => by have := hp p h; omega⟩
      dsimp only
      split
      · exact ⟨_, rfl, fun p hp => by cases hp; simp only; omega⟩
      · split
        · cases newContainer e with
          | error err => exact ⟨_, rfl, fun p hp => by cases hp⟩
          | ok c =>
            dsimp only
            obtain ⟨r, hr, hp⟩ := ih (sourcePot src') (by omega) src' (Nat.le_refl _) .containerEnd c.1
            rw [hr]
            simp only [Option.bind_some]
            cases r with
            | error err => exact ⟨_, rfl, fun p hp => by cases hp⟩
            | ok q =>
              have hq := hp q rfl
              dsimp only
              cases out.add e (q.1.obj c.2.1 c.2.2) with
              | error err => exact ⟨_, rfl, fun p hp => by cases hp⟩
              | ok out' =>
                obtain ⟨r, hr, hp⟩ := ih (sourcePot q.2) (by omega) q.2 (Nat.le_refl _) endType out'
                exact ⟨r, hr, fun p h => by have := hp p h; omega⟩
        · split
          · cases scalarObj e with
            | error err => exact ⟨_, rfl, fun p hp => by cases hp⟩
            | ok o =>
              dsimp only
              cases out.add e o with
              | error err => exact ⟨_, rfl, fun p hp => by cases hp⟩
              | ok out' => exact again out'
          · exact again out

/-- `load` of binary data ends. -/
theorem loadFrom_ends (single : Bool) (src : Source (Status RawReader.Status)) : ∃ r, loadFrom bstep single src = some r := by
  obtain ⟨r, hr, -⟩ := loop_ends _ src (Nat.le_refl _) .streamEnd (.list [])
  unfold loadFrom
  rw [hr]
  simp only [Option.bind_eq_bind, Option.bind_some]
  cases r with
  | error err => exact ⟨_, rfl⟩
  | ok p =>
    dsimp only
    split <;> exact ⟨_, rfl⟩

end Ion.Simple
