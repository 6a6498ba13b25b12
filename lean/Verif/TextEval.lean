import Verif.TextRun
set_option linter.unusedSimpArgs false
/-!
# Evaluating the text reader on given texts

`Reading` says which events the reader delivers and how it ends, by `STREAM_END` or by an exception.  `evalN` computes this
for a given text; it is only used for the examples that show where the reader deviates from the Ion specification.
-/
namespace Ion.TextReader
open Ion
open Ion.RawReader (Cmd)

section
variable {R : Type} (step : R → Cmd → Except PyErr IonEvent × R) (etype : IonEvent → IonEventType)

/-- With `NEXT` only, the reader yields these events, and then ends or raises. -/
inductive Reading : R → List Bytes → List IonEvent → Option PyErr → Prop
  | ended {st : R} {cs : List Bytes} : Ends step etype st .next cs → Reading st cs [] none
  | raised {st : R} {cs : List Bytes} {err : PyErr} : Raises step etype st .next cs err → Reading st cs [] (some err)
  | cons {st : R} {cs : List Bytes} {e : IonEvent} {st1 : R} {cs1 : List Bytes} {es : List IonEvent} {o : Option PyErr} : Yields step etype st .next cs e st1 cs1 →
      Reading st1 cs1 es o → Reading st cs (e :: es) o

variable {step etype} (endEvent : IonEvent)

theorem raises_blocking {st : R} {cmd : Cmd} {cs : List Bytes} {err : PyErr} (h : Raises step etype st cmd cs err) :
    Blocking.loop step etype endEvent (step st cmd) cs = (.error err, .dead) := by
  induction h with
  | @now st cmd cs err st' h1 =>
    rw [h1]
    cases cs with
    | nil =>
      simp only [Blocking.loop, Blocking.atEof]
      rw [Blocking.atEofLoop.eq_def]
      simp
    | cons d ds => simp [Blocking.loop]
  | feed h1 h2 _ _ ih => rw [h1]; simp only [Blocking.loop, h2, if_true]; exact ih
  | flush h1 h2 _ _ ih =>
    rw [h1]
    simp only [Blocking.loop, Blocking.atEof] at ih ⊢
    rw [Blocking.atEofLoop.eq_def]
    simp only [h2, reduceCtorEq, if_false, if_true]
    exact ih

/-- What `blocking_reader` gives last. -/
def lastly : Option PyErr → Except PyErr IonEvent
  | none => .ok endEvent
  | some err => .error err

theorem reading_blocking {st : R} {cs : List Bytes} {es : List IonEvent} {o : Option PyErr} (h : Reading step etype st cs es o) :
    Blocking.run step etype endEvent (.active st cs) (List.replicate (es.length + 1) .next) = es.map .ok ++ [lastly endEvent o] := by
  induction h with
  | ended h =>
    simp only [List.length_nil, Nat.zero_add, List.replicate_one, Blocking.run, Blocking.send]
    rw [ends_blocking endEvent h]; rfl
  | raised h =>
    simp only [List.length_nil, Nat.zero_add, List.replicate_one, Blocking.run, Blocking.send]
    rw [raises_blocking endEvent h]; rfl
  | @cons st cs e st1 cs1 es o h1 _ ih =>
    rw [List.length_cons, List.replicate_succ, Blocking.run, Blocking.send, yields_blocking endEvent h1]
    simp only [List.cons_append, List.map_cons, List.cons.injEq, true_and]
    exact ih
end

/-- From the state `s`, with the text `r` left, the reader delivers these events and ends or raises. -/
inductive Answers (F : FloatText) : St → List Nat → List IonEvent → Option PyErr → Prop
  | ended {s : St} {r : List Nat} : Ans F none (.go s) r .ended → Answers F s r [] none
  | raised {s : St} {r : List Nat} {err : PyErr} : Ans F none (.go s) r (.error err) → Answers F s r [] (some err)
  | cons {s : St} {r : List Nat} {e : IonEvent} {s1 : St} {r1 : List Nat} {es : List IonEvent} {o : Option PyErr} : Ans F none (.go s) r (.event e s1 r1) →
      e.eventType.isStreamSignal = false → Answers F s1 r1 es o → Answers F s r (e :: es) o

theorem answers_of_events [Fate] {F : FloatText} {s : St} {r : List Nat} {es : List IonEvent} (h : Events F s r es) : Answers F s r es Fate.o := by
  induction h with
  | nil h0 h => rw [h0]; exact .ended h
  | raised h0 h => rw [h0]; exact .raised h
  | cons h1 h2 _ ih => exact .cons h1 h2 ih

/-- What an action comes to is determined. -/
theorem ans_det {F : FloatText} {l : Option Nat} {a : Act} {r : List Nat} {o : Answer} (h : Ans F l a r o) : ∀ {o' : Answer}, Ans F l a r o' → o = o' := by
  induction h with
  | err => intro o' h'; cases h'; rfl
  | emit => intro o' h'; cases h'; rfl
  | read _ ih => intro o' h'; cases h' with | read h' => exact ih h'
  | done => intro o' h'; cases h'; rfl
  | flush _ ih => intro o' h'; cases h' with | flush h' => exact ih h'
  | cut => intro o' h'; cases h'; rfl
  | unread _ ih => intro o' h'; cases h' with | unread h' => exact ih h'
  | wait => intro o' h'; cases h'; rfl
  | go _ ih => intro o' h'; cases h' with | go h' => exact ih h'

/-- What the reader delivers is determined. -/
theorem answers_det {F : FloatText} {s : St} {r : List Nat} {es : List IonEvent} {o : Option PyErr} (h : Answers F s r es o) :
    ∀ {es' : List IonEvent} {o' : Option PyErr}, Answers F s r es' o' → es = es' ∧ o = o' := by
  induction h with
  | ended h1 =>
    intro es' o' h'
    cases h' with
    | ended => exact ⟨rfl, rfl⟩
    | raised h2 => cases ans_det h1 h2
    | cons h2 => cases ans_det h1 h2
  | raised h1 =>
    intro es' o' h'
    cases h' with
    | ended h2 => cases ans_det h1 h2
    | raised h2 => cases ans_det h1 h2; exact ⟨rfl, rfl⟩
    | cons h2 => cases ans_det h1 h2
  | cons h1 _ _ ih =>
    intro es' o' h'
    cases h' with
    | ended h2 => cases ans_det h1 h2
    | raised h2 => cases ans_det h1 h2
    | cons h2 _ h3 =>
      cases ans_det h1 h2
      obtain ⟨rfl, rfl⟩ := ih h3
      exact ⟨rfl, rfl⟩

theorem reading_of_paused {F : FloatText} {units : Bytes → List Nat} {s : St} {r : List Nat} {es : List IonEvent} {o : Option PyErr} (h : Answers F s r es o) :
    ∀ {q : BufferQueue Nat} {cs : List Bytes} {depth : Int} {st : Status}, Holds units q cs none r →
    send F units st .next = reply F depth (.go s) q → Reading (send F units) IonEvent.eventType st cs es o := by
  induction h with
  | ended h => exact fun hq hst => .ended (replies_of_ans h _ hq _ _ hst)
  | raised h => exact fun hq hst => .raised (replies_of_ans h _ hq _ _ hst)
  | cons h he _ ih =>
    intro q cs depth st hq hst
    obtain ⟨q', depth', cs', h1, h2⟩ := replies_of_ans h _ hq _ _ hst he
    exact .cons h2 (ih h1 (st := .paused _ _ q' depth') rfl)

/-- The text reader, fed with any non-empty chunks, answers as on the whole text. -/
theorem reading_of_answers {F : FloatText} {units : Bytes → List Nat} {cs : List Bytes} (hcs : ∀ d ∈ cs, units d ≠ []) {es : List IonEvent} {o : Option PyErr}
    (h : Answers F {} (cs.flatMap units) es o) : Reading (send F units) IonEvent.eventType .fresh cs es o :=
  reading_of_paused h (q := .empty) ⟨⟨[], [], Queue.rel_empty, by simp, by simp⟩, hcs⟩ rfl

/-! ## Evaluation -/

/-- `Ans`, computed in at most `n` steps. -/
def ansN (F : FloatText) : Nat → Option Nat → Act → List Nat → Option Answer
  | 0, _, _, _ => none
  | _ + 1, _, .err e, _ => some (.error e)
  | _ + 1, _, .emit e s, r => some (.event e s r)
  | n + 1, _, .read _ _ k, x :: r => ansN F n (some x) (k x) r
  | n + 1, _, .read c f k, [] => if c then some .ended else if f then ansN F n (some EOF) (k EOF) [] else some (.error .ionException)
  | n + 1, l, .unread x a, r => if l = some x then ansN F n none a (x :: r) else none
  | _ + 1, _, .wait _, r => if r = [] then some .ended else none
  | n + 1, _, .go s, r => ansN F n none (next F s) r

theorem ansN_sound {F : FloatText} : ∀ {n : Nat} {l : Option Nat} {a : Act} {r : List Nat} {o : Answer}, ansN F n l a r = some o → Ans F l a r o := by
  intro n
  induction n with
  | zero => intro l a r o h; cases h
  | succ n ih =>
    intro l a r o h
    cases a with
    | err e => simp only [ansN, Option.some.injEq] at h; subst h; exact .err
    | emit e s => simp only [ansN, Option.some.injEq] at h; subst h; exact .emit
    | read c f k =>
      cases r with
      | nil =>
        cases c with
        | true => simp only [ansN, if_true, Option.some.injEq] at h; subst h; exact .done
        | false =>
          cases f with
          | true => simp only [ansN, Bool.false_eq_true, if_false, if_true] at h; exact .flush (ih h)
          | false => simp only [ansN, Bool.false_eq_true, if_false, Option.some.injEq] at h; subst h; exact .cut
      | cons x r => exact .read (ih h)
    | unread x a =>
      by_cases hl : l = some x
      · subst hl
        simp only [ansN, if_true] at h
        exact .unread (ih h)
      · simp only [ansN, hl, if_false] at h; cases h
    | wait a =>
      cases r with
      | nil => simp only [ansN, if_true, Option.some.injEq] at h; subst h; exact .wait
      | cons x r => simp [ansN] at h
    | go s => exact .go (ih h)

/-- `Answers`, computed with at most `n` events and `m` steps for each. -/
def evalN (F : FloatText) (m : Nat) : Nat → St → List Nat → Option (List IonEvent × Option PyErr)
  | 0, _, _ => none
  | n + 1, s, r => match ansN F m none (.go s) r with
    | none => none
    | some .ended => some ([], none)
    | some (.error err) => some ([], some err)
    | some (.event e s1 r1) =>
      if e.eventType.isStreamSignal then none
      else match evalN F m n s1 r1 with
        | none => none
        | some (es, o) => some (e :: es, o)

theorem evalN_sound {F : FloatText} {m : Nat} : ∀ {n : Nat} {s : St} {r : List Nat} {es : List IonEvent} {o : Option PyErr}, evalN F m n s r = some (es, o) → Answers F s r es o := by
  intro n
  induction n with
  | zero => intro s r es o h; cases h
  | succ n ih =>
    intro s r es o h
    unfold evalN at h
    split at h
    · cases h
    · next ha => simp only [Option.some.injEq, Prod.mk.injEq] at h; obtain ⟨rfl, rfl⟩ := h; exact .ended (ansN_sound ha)
    · next ha => simp only [Option.some.injEq, Prod.mk.injEq] at h; obtain ⟨rfl, rfl⟩ := h; exact .raised (ansN_sound ha)
    · next e s1 r1 ha =>
      split at h
      · cases h
      · next he =>
        split at h
        · cases h
        · next es1 o1 hr =>
          simp only [Option.some.injEq, Prod.mk.injEq] at h
          obtain ⟨rfl, rfl⟩ := h
          exact .cons (ansN_sound ha) (by simpa using he) (ih hr)

end Ion.TextReader
