import Verif.TextReader
import Verif.Blocking
import Verif.ManagedReader
import Verif.Simple
import Verif.Props.BufferQueue
set_option linter.unusedSimpArgs false
/-!
# Running the text reader on a whole text

The text reader works on a queue of segments and stops whenever the queue is empty.  `Ans` says what an action of the reader
comes to on the *whole* of the remaining text, without queue and chunks.  `Yields`, `Ends` and `Raises` say, for any reader
co-routine, what a caller gets who supplies the chunks one after the other and then requests the rest (`blocking_reader`).
The main theorem of this file (`replies_of_ans`) connects the two: however the text is cut into chunks, the caller gets what
the whole text comes to.
-/
namespace Ion.TextReader
open Ion
open Ion.RawReader (Cmd)

/-! ## Readers that are fed with chunks -/

section
variable {R : Type} (step : R → Cmd → Except PyErr IonEvent × R) (etype : IonEvent → IonEventType)

/-- The two stream signals of a raw reader. -/
def IsSignal (e : IonEvent) : Prop := e = ION_STREAM_END_EVENT ∨ e = ION_STREAM_INCOMPLETE_EVENT

/-- The reader, sent `cmd` and then the chunks it needs, yields the event `e`. -/
inductive Yields : R → Cmd → List Bytes → IonEvent → R → List Bytes → Prop
  | now {st : R} {cmd : Cmd} {cs : List Bytes} {e : IonEvent} {st' : R} : step st cmd = (.ok e, st') → (etype e).isStreamSignal = false →
      Yields st cmd cs e st' cs
  | feed {st : R} {cmd : Cmd} {d : Bytes} {ds : List Bytes} {e sig : IonEvent} {st1 st' : R} {cs' : List Bytes} : step st cmd = (.ok sig, st1) →
      (etype sig).isStreamSignal = true → IsSignal sig → Yields st1 (.data d) ds e st' cs' → Yields st cmd (d :: ds) e st' cs'
  | flush {st : R} {cmd : Cmd} {e sig : IonEvent} {st1 st' : R} {cs' : List Bytes} : step st cmd = (.ok sig, st1) → etype sig = .incomplete → IsSignal sig →
      Yields st1 .next [] e st' cs' → Yields st cmd [] e st' cs'

/-- The reader, sent `cmd` and then all chunks, is at the end of the stream. -/
inductive Ends : R → Cmd → List Bytes → Prop
  | now {st : R} {cmd : Cmd} {e : IonEvent} {st' : R} : step st cmd = (.ok e, st') → etype e = .streamEnd → IsSignal e → Ends st cmd []
  | feed {st : R} {cmd : Cmd} {d : Bytes} {ds : List Bytes} {sig : IonEvent} {st1 : R} : step st cmd = (.ok sig, st1) →
      (etype sig).isStreamSignal = true → IsSignal sig → Ends st1 (.data d) ds → Ends st cmd (d :: ds)
  | flush {st : R} {cmd : Cmd} {sig : IonEvent} {st1 : R} : step st cmd = (.ok sig, st1) → etype sig = .incomplete → IsSignal sig →
      Ends st1 .next [] → Ends st cmd []

/-- The reader, sent `cmd` and then the chunks it needs, raises. -/
inductive Raises : R → Cmd → List Bytes → PyErr → Prop
  | now {st : R} {cmd : Cmd} {cs : List Bytes} {err : PyErr} {st' : R} : step st cmd = (.error err, st') → Raises st cmd cs err
  | feed {st : R} {cmd : Cmd} {d : Bytes} {ds : List Bytes} {sig : IonEvent} {st1 : R} {err : PyErr} : step st cmd = (.ok sig, st1) →
      (etype sig).isStreamSignal = true → IsSignal sig → Raises st1 (.data d) ds err → Raises st cmd (d :: ds) err
  | flush {st : R} {cmd : Cmd} {sig : IonEvent} {st1 : R} {err : PyErr} : step st cmd = (.ok sig, st1) → etype sig = .incomplete → IsSignal sig →
      Raises st1 .next [] err → Raises st cmd [] err

variable {step etype} (endEvent : IonEvent)

theorem yields_blocking {st : R} {cmd : Cmd} {cs : List Bytes} {e : IonEvent} {st' : R} {cs' : List Bytes} (h : Yields step etype st cmd cs e st' cs') :
    Blocking.loop step etype endEvent (step st cmd) cs = (.ok e, .active st' cs') := by
  induction h with
  | @now st cmd cs e st' h1 h2 =>
    rw [h1]
    cases cs with
    | nil =>
      have h3 : etype e ≠ .streamEnd := by intro hc; rw [hc] at h2; simp [IonEventType.isStreamSignal] at h2
      have h4 : etype e ≠ .incomplete := by intro hc; rw [hc] at h2; simp [IonEventType.isStreamSignal] at h2
      simp only [Blocking.loop, Blocking.atEof]
      rw [Blocking.atEofLoop.eq_def]
      simp [h3, h4]
    | cons d ds => simp [Blocking.loop, h2]
  | feed h1 h2 _ _ ih => rw [h1]; simp only [Blocking.loop, h2, if_true]; exact ih
  | flush h1 h2 _ _ ih =>
    rw [h1]
    simp only [Blocking.loop, Blocking.atEof] at ih ⊢
    rw [Blocking.atEofLoop.eq_def]
    simp only [h2, reduceCtorEq, if_false, if_true]
    exact ih

theorem ends_blocking {st : R} {cmd : Cmd} {cs : List Bytes} (h : Ends step etype st cmd cs) :
    Blocking.loop step etype endEvent (step st cmd) cs = (.ok endEvent, .ended) := by
  induction h with
  | now h1 h2 _ =>
    rw [h1]
    simp only [Blocking.loop, Blocking.atEof]
    rw [Blocking.atEofLoop.eq_def]
    simp [h2]
  | feed h1 h2 _ _ ih => rw [h1]; simp only [Blocking.loop, h2, if_true]; exact ih
  | flush h1 h2 _ _ ih =>
    rw [h1]
    simp only [Blocking.loop, Blocking.atEof] at ih ⊢
    rw [Blocking.atEofLoop.eq_def]
    simp only [h2, reduceCtorEq, if_false, if_true]
    exact ih
end

/-! ## Actions on the whole text -/

/-- What an action comes to. -/
inductive Answer where
  | event (e : IonEvent) (s : St) (r : List Nat)
  | ended
  | error (err : PyErr)

/-- What the action `a` comes to when the text that is left is `r` and the character read last is `l` (only that character
can be given back). -/
inductive Ans (F : FloatText) : Option Nat → Act → List Nat → Answer → Prop
  | err {l : Option Nat} {e : PyErr} {r : List Nat} : Ans F l (.err e) r (.error e)
  | emit {l : Option Nat} {e : IonEvent} {s : St} {r : List Nat} : Ans F l (.emit e s) r (.event e s r)
  | read {l : Option Nat} {c f : Bool} {k : Nat → Act} {x : Nat} {r : List Nat} {o : Answer} : Ans F (some x) (k x) r o →
      Ans F l (.read c f k) (x :: r) o
  /-- the end of the text, at a place where the stream may end -/
  | done {l : Option Nat} {f : Bool} {k : Nat → Act} : Ans F l (.read true f k) [] .ended
  /-- the end of the text, at a place where a token may end -/
  | flush {l : Option Nat} {k : Nat → Act} {o : Answer} : Ans F (some EOF) (k EOF) [] o → Ans F l (.read false true k) [] o
  /-- the end of the text, elsewhere -/
  | cut {l : Option Nat} {k : Nat → Act} : Ans F l (.read false false k) [] (.error .ionException)
  | unread {x : Nat} {a : Act} {r : List Nat} {o : Answer} : Ans F none a (x :: r) o → Ans F (some x) (.unread x a) r o
  | wait {l : Option Nat} {a : Act} : Ans F l (.wait a) [] .ended
  | go {l : Option Nat} {s : St} {r : List Nat} {o : Answer} : Ans F none (next F s) r o → Ans F l (.go s) r o

/-- How the reading of a text is to end: `none`, with the end of the stream; otherwise with this exception.  A class, so that
the theorems on the steps of the reader need not mention it: they hold for any end. -/
class Fate where
  o : Option PyErr

/-- If nothing is said, with the end of the stream. -/
instance (priority := low) successful : Fate := ⟨none⟩

/-- From the state `s`, with the text `r` left, the reader delivers these events and ends as given by `Fate`. -/
inductive Events [Fate] (F : FloatText) : St → List Nat → List IonEvent → Prop
  | nil {s : St} {r : List Nat} : Fate.o = none → Ans F none (.go s) r .ended → Events F s r []
  | raised {s : St} {r : List Nat} {err : PyErr} : Fate.o = some err → Ans F none (.go s) r (.error err) → Events F s r []
  | cons {s : St} {r : List Nat} {e : IonEvent} {s1 : St} {r1 : List Nat} {es : List IonEvent} : Ans F none (.go s) r (.event e s1 r1) →
      e.eventType.isStreamSignal = false → Events F s1 r1 es → Events F s r (e :: es)

/-! ## The connection -/

/-- The queue and the chunks that are to come contain the text `r`; `l`, if it is known, was read last. -/
structure Holds (units : Bytes → List Nat) (q : BufferQueue Nat) (cs : List Bytes) (l : Option Nat) (r : List Nat) : Prop where
  rel : ∃ consumed rest, Queue.Rel q ⟨consumed, rest⟩ ∧ r = rest ++ cs.flatMap units ∧ ∀ x, l = some x → consumed.getLast? = some x
  chunks : ∀ d ∈ cs, units d ≠ []

theorem Holds.forget {units : Bytes → List Nat} {q : BufferQueue Nat} {cs : List Bytes} {l : Option Nat} {r : List Nat} (h : Holds units q cs l r) :
    Holds units q cs none r := by
  obtain ⟨⟨c, rest, h1, h2, _⟩, h3⟩ := h
  exact ⟨⟨c, rest, h1, h2, by simp⟩, h3⟩

theorem holds_size {units : Bytes → List Nat} {q : BufferQueue Nat} {cs : List Bytes} {l : Option Nat} {r : List Nat} (h : Holds units q cs l r) :
    (q.size = 0 ∧ r = cs.flatMap units) ∨
    (q.size ≠ 0 ∧ ∃ x r' q', r = x :: r' ∧ q.readByte = .ok (x, q') ∧ Holds units q' cs (some x) r') := by
  obtain ⟨⟨c, rest, h1, h2, _⟩, h3⟩ := h
  cases rest with
  | nil => exact .inl ⟨by rw [h1.size]; rfl, by simpa using h2⟩
  | cons x rest =>
    refine .inr ⟨by rw [h1.size]; simp; omega, x, rest ++ cs.flatMap units, ?_⟩
    have hs := Queue.rel_step h1 .readByte trivial
    simp only [Queue.step, Queue.Spec.Flat.step] at hs
    cases hb : q.readByte with
    | error err => rw [hb] at hs; simp at hs
    | ok p =>
      obtain ⟨b, q'⟩ := p
      rw [hb] at hs
      simp only [Queue.Out.byte.injEq] at hs
      obtain ⟨rfl, hs⟩ := hs
      refine ⟨q', by simpa using h2, rfl, ⟨⟨_, _, hs, ?_, ?_⟩, h3⟩⟩
      · simp [Queue.Spec.Flat.advance]
      · rintro y hy
        simp only [Option.some.injEq] at hy
        simp [Queue.Spec.Flat.advance, hy]

theorem holds_extend {units : Bytes → List Nat} {q : BufferQueue Nat} {d : Bytes} {ds : List Bytes} {l : Option Nat} {r : List Nat}
    (h : Holds units q (d :: ds) l r) : Holds units (q.extend (units d)) ds l r := by
  obtain ⟨⟨c, rest, h1, h2, h4⟩, h3⟩ := h
  have hs := (Queue.rel_step h1 (.extend (units d)) (h3 d (by simp))).2
  simp only [Queue.step, Queue.Spec.Flat.step] at hs
  exact ⟨⟨_, _, hs, by simp [h2], h4⟩, fun x hx => h3 x (by simp [hx])⟩

theorem holds_eof {units : Bytes → List Nat} {q : BufferQueue Nat} {l : Option Nat}
    (h : Holds units q [] l []) : ∃ q', (q.extend [EOF]).size ≠ 0 ∧ (q.extend [EOF]).readByte = .ok (EOF, q') ∧ Holds units q' [] (some EOF) [] := by
  obtain ⟨⟨c, rest, h1, h2, h4⟩, h3⟩ := h
  have hr : rest = [] := by simpa using h2.symm
  subst hr
  have hs := (Queue.rel_step h1 (.extend [EOF]) (by simp)).2
  simp only [Queue.step, Queue.Spec.Flat.step, List.nil_append] at hs
  have h : Holds units (q.extend [EOF]) [] l [EOF] := ⟨⟨_, _, hs, by simp, h4⟩, by simp⟩
  rcases holds_size h with ⟨_, h6⟩ | ⟨h5, x, r', q', h6, h7, h8⟩
  · simp at h6
  · simp only [List.cons.injEq] at h6
    obtain ⟨rfl, rfl⟩ := h6
    exact ⟨q', h5, h7, h8⟩

theorem holds_unread {units : Bytes → List Nat} {q : BufferQueue Nat} {cs : List Bytes} {x : Nat} {r : List Nat} (h : Holds units q cs (some x) r) :
    ∃ q', q.unread x = (.ok (), q') ∧ Holds units q' cs none (x :: r) := by
  obtain ⟨⟨c, rest, h1, h2, h4⟩, h3⟩ := h
  have hl := h4 x rfl
  have hne : c ≠ [] := by rintro rfl; simp at hl
  have hs := Queue.rel_step h1 (.unread x) (.inr hl)
  simp only [Queue.step, Queue.Spec.Flat.step, hne, if_false] at hs
  cases hb : q.unread x with
  | mk res q' =>
    rw [hb] at hs
    cases res with
    | error err => simp at hs
    | ok u => exact ⟨q', rfl, ⟨⟨_, _, hs.2, by simp [h2], by simp⟩, h3⟩⟩

/-- How the raw text reader continues from the action `a`: as a reply of `send`. -/
def reply (F : FloatText) (depth : Int) (a : Act) (q : BufferQueue Nat) : Except PyErr IonEvent × Status := orDiverge (deliver F depth false a q)

/-- `Yields` from a reply that has already been given. -/
def Replies (F : FloatText) (units : Bytes → List Nat) (r : Except PyErr IonEvent × Status) (cs : List Bytes) (o : Answer) : Prop :=
  ∀ st cmd, send F units st cmd = r → match o with
    | .event e s rest => e.eventType.isStreamSignal = false →
      ∃ q depth cs', Holds units q cs' none rest ∧ Yields (send F units) IonEvent.eventType st cmd cs e (.paused e s q depth) cs'
    | .ended => Ends (send F units) IonEvent.eventType st cmd cs
    | .error err => Raises (send F units) IonEvent.eventType st cmd cs err

theorem reply_congr {F : FloatText} {depth : Int} {a b : Act} {q q' : BufferQueue Nat} (h : advance F a q = advance F b q') :
    reply F depth a q = reply F depth b q' := by
  simp only [reply]
  rw [deliver.eq_def, deliver.eq_def (a := b), h]

theorem reply_block {F : FloatText} {depth : Int} {c f : Bool} {k : Nat → Act} {q : BufferQueue Nat} (h : q.size = 0) :
    reply F depth (.read c f k) q
      = (.ok (if c then ION_STREAM_END_EVENT else ION_STREAM_INCOMPLETE_EVENT), .blocked c f k q depth false) := by
  simp only [reply]
  rw [deliver.eq_def, advance.eq_def]
  simp [h, orDiverge]

/-- A read when the queue is empty and more chunks are to come. -/
theorem replies_feed {F : FloatText} {units : Bytes → List Nat} {depth : Int} {c f : Bool} {k : Nat → Act} {q : BufferQueue Nat} {d : Bytes}
    {ds : List Bytes} {o : Answer} (hq : q.size = 0) (hd : units d ≠ [])
    (h : Replies F units (reply F depth (.read c f k) (q.extend (units d))) ds o) :
    Replies F units (reply F depth (.read c f k) q) (d :: ds) o := by
  intro st cmd hst
  rw [reply_block hq] at hst
  have hsig : IonEventType.isStreamSignal (IonEvent.eventType (if c then ION_STREAM_END_EVENT else ION_STREAM_INCOMPLETE_EVENT)) = true := by
    cases c <;> rfl
  have hsg : IsSignal (if c then ION_STREAM_END_EVENT else ION_STREAM_INCOMPLETE_EVENT) := by
    cases c
    · exact .inr rfl
    · exact .inl rfl
  have h1 := h (.blocked c f k q depth false) (.data d) (by simp [send, hd, reply])
  cases o with
  | event e s rest =>
    intro he
    obtain ⟨q', depth', cs', h2, h3⟩ := h1 he
    exact ⟨q', depth', cs', h2, .feed hst hsig hsg h3⟩
  | ended => exact .feed hst hsig hsg h1
  | error err => exact .feed hst hsig hsg h1

theorem replies_of_ans {F : FloatText} {units : Bytes → List Nat} {l : Option Nat} {a : Act} {r : List Nat} {o : Answer} (h : Ans F l a r o) :
    ∀ {q : BufferQueue Nat} {cs : List Bytes} (depth : Int), Holds units q cs l r → Replies F units (reply F depth a q) cs o := by
  induction h with
  | @err l e r =>
    intro q cs depth _ st cmd hst
    have : reply F depth (.err e) q = (.error e, .dead) := by
      simp only [reply]; rw [deliver.eq_def, advance.eq_def]; simp [orDiverge]
    rw [this] at hst
    exact .now hst
  | @emit l e s r =>
    intro q cs depth hq st cmd hst he
    have : reply F depth (.emit e s) q = (.ok e, .paused e s q (if e.eventType = .containerStart ∨ e.eventType = .containerEnd then e.depth.getD 0 else depth)) := by
      simp only [reply]
      rw [deliver.eq_def, advance.eq_def]
      simp only [orDiverge, bind, Option.bind_some]
      by_cases hc : e.eventType = .containerStart ∨ e.eventType = .containerEnd <;> simp [hc]
    rw [this] at hst
    exact ⟨q, _, cs, hq.forget, .now hst he⟩
  | @read l c f k x r o _ ih =>
    intro q cs
    induction cs generalizing q with
    | nil =>
      intro depth hq
      rcases holds_size hq with ⟨_, h2⟩ | ⟨h1, x', r', q', h2, h3, h4⟩
      · simp at h2
      · simp only [List.cons.injEq] at h2
        obtain ⟨rfl, rfl⟩ := h2
        have : reply F depth (.read c f k) q = reply F depth (k x) q' := reply_congr (by rw [advance.eq_def]; simp [h1, h3])
        rw [this]
        exact ih depth h4
    | cons d ds ihc =>
      intro depth hq
      rcases holds_size hq with ⟨h1, h2⟩ | ⟨h1, x', r', q', h2, h3, h4⟩
      · exact replies_feed h1 (hq.chunks d (by simp)) (ihc depth (holds_extend hq))
      · simp only [List.cons.injEq] at h2
        obtain ⟨rfl, rfl⟩ := h2
        have : reply F depth (.read c f k) q = reply F depth (k x) q' := reply_congr (by rw [advance.eq_def]; simp [h1, h3])
        rw [this]
        exact ih depth h4
  | @done l f k =>
    intro q cs depth hq
    rcases holds_size hq with ⟨h1, h2⟩ | ⟨h1, x', r', q', h2, h3, h4⟩
    · have hcs : cs = [] := by
        cases cs with
        | nil => rfl
        | cons d ds =>
          have := hq.chunks d (by simp)
          simp at h2
          exact absurd h2.1 this
      subst hcs
      intro st cmd hst
      rw [reply_block h1] at hst
      exact .now hst rfl (.inl rfl)
    · cases h2
  | @flush l k o _ ih =>
    intro q cs depth hq
    rcases holds_size hq with ⟨h1, h2⟩ | ⟨h1, x', r', q', h2, h3, h4⟩
    · have hcs : cs = [] := by
        cases cs with
        | nil => rfl
        | cons d ds =>
          have := hq.chunks d (by simp)
          simp at h2
          exact absurd h2.1 this
      subst hcs
      obtain ⟨q', h5, h6, h7⟩ := holds_eof hq
      intro st cmd hst
      rw [reply_block h1] at hst
      have h8 : send F units (.blocked false true k q depth false) .next = reply F depth (k EOF) q' := by
        simp only [send, reply, Bool.false_eq_true, if_false, if_true]
        refine congrArg orDiverge ?_
        rw [deliver.eq_def, deliver.eq_def (a := k EOF), advance.eq_def]
        simp [h5, h6]
      have h9 := ih depth h7 _ _ h8
      cases o with
      | event e s rest =>
        intro he
        obtain ⟨q2, depth', cs', h10, h11⟩ := h9 he
        exact ⟨q2, depth', cs', h10, .flush hst rfl (.inr rfl) h11⟩
      | ended => exact .flush hst rfl (.inr rfl) h9
      | error err => exact .flush hst rfl (.inr rfl) h9
    · cases h2
  | @cut l k =>
    intro q cs depth hq
    rcases holds_size hq with ⟨h1, h2⟩ | ⟨h1, x', r', q', h2, h3, h4⟩
    · have hcs : cs = [] := by
        cases cs with
        | nil => rfl
        | cons d ds =>
          have := hq.chunks d (by simp)
          simp at h2
          exact absurd h2.1 this
      subst hcs
      intro st cmd hst
      rw [reply_block h1] at hst
      exact .flush hst rfl (.inr rfl) (.now (by simp [send]; rfl))
    · cases h2
  | @unread x a r o _ ih =>
    intro q cs depth hq
    obtain ⟨q', h1, h2⟩ := holds_unread hq
    have : reply F depth (.unread x a) q = reply F depth a q' := reply_congr (by rw [advance.eq_def]; simp [h1])
    rw [this]
    exact ih depth h2
  | @wait l a =>
    intro q cs depth hq
    rcases holds_size hq with ⟨h1, h2⟩ | ⟨h1, x', r', q', h2, h3, h4⟩
    · have hcs : cs = [] := by
        cases cs with
        | nil => rfl
        | cons d ds =>
          have := hq.chunks d (by simp)
          simp at h2
          exact absurd h2.1 this
      subst hcs
      intro st cmd hst
      have : reply F depth (.wait a) q = (.ok ION_STREAM_END_EVENT, .waiting a q depth false) := by
        simp only [reply]; rw [deliver.eq_def, advance.eq_def]; simp [h1, orDiverge]
      rw [this] at hst
      exact .now hst rfl (.inl rfl)
    · cases h2
  | @go l s r o _ ih =>
    intro q cs depth hq
    have : reply F depth (.go s) q = reply F depth (next F s) q := reply_congr (by rw [advance.eq_def])
    rw [this]
    exact ih depth hq.forget

end Ion.TextReader
