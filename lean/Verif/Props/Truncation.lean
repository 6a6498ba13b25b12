import Verif.Props.RawReader
import Verif.IonExtent
import Verif.Blocking
import Verif.Props.Nesting
set_option linter.unusedSimpArgs false
/-!
# C24 (two chunkings), C25 (truncation), C26 (skipping), C41 (padding)

Consequences of `pulls_reads` (Props/RawReader) for the non-blocking reader, and for the blocking reader on top of it.
-/
namespace Ion.RawReader
open Ion Ion.Spec Ion.Fields.Spec Ion.Scalars.Spec

/-! ## C24 -/

/-- **C24**  The way a complete document is split into chunks does not matter. -/
theorem C24_chunking_irrelevant (doc : Bytes) (segs : List (List (Node Nat))) (hs : IsStream doc segs)
    (hr : ∀ items ∈ segs, AllScalars Readable items) (cs cs' : List Bytes) (hc : Chunks cs doc) (hc' : Chunks cs' doc)
    (rs : List Request) : pulls init cs (rs.map toCmd) = pulls init cs' (rs.map toCmd) := by
  rw [C24_reader_follows_document_partial doc segs hs hr cs hc rs, C24_reader_follows_document_partial doc segs hs hr cs' hc' rs]

/-- The results of a given number of `NEXT`s. -/
def nexts (cs : List Bytes) (n : Nat) : List (Except PyErr IonEvent) := pulls init cs ((List.replicate n Request.next).map toCmd)

/-- **C24, the limit.**  For ill-formed input the chunks do matter: the list below (its annotation wrapper contains a NOP pad
of variable length, whose length field lies beyond the end of the wrapper) is accepted in one piece and rejected when it is
split there.  The handler of variable-length fields checks the limit only when it has to
wait for data. -/
theorem C24_malformed_depends_on_chunks :
    (nexts [[0xE0, 0x01, 0x00, 0xEA, 0xB5, 0xE3, 0x81, 0x84, 0x0E, 0x80]] 4).getLast? = some (.ok { eventType := .streamEnd }) ∧
    (nexts [[0xE0, 0x01, 0x00, 0xEA, 0xB5, 0xE3, 0x81, 0x84, 0x0E], [0x80]] 4).getLast? = some (.error .ionException) := by
  decide +kernel

/-! ## C25 -/

end Ion.RawReader
namespace Ion.Spec
open Ion

/-- The number of `NEXT`s until everything in the values has been delivered. -/
def nodesSize : List (Node Nat) → Nat
  | [] => 0
  | .scalar _ _ _ :: ns => 1 + nodesSize ns
  | .cont _ _ _ items :: ns => 2 + nodesSize items + nodesSize ns

/-- The number of `NEXT`s until the end of the document. -/
def Cursor.size (c : Cursor) : Nat :=
  (c.levels.map fun l => nodesSize l.2 + 1).sum + (c.top.map fun | .marker => 1 | .value n => nodesSize [n]).sum

theorem Cursor.next_size {c c' : Cursor} {e : IonEvent} (h : c.next = some (e, c')) : Cursor.size c = Cursor.size c' + 1 := by
  have hv : ∀ (c : Cursor) (n : Node Nat), Cursor.size (c.visit n) + 1 = Cursor.size c + nodesSize [n] := by
    intro c n
    cases n <;> simp [Cursor.visit, Cursor.size, nodesSize]; omega
  have hs : ∀ (n : Node Nat) (ns : List (Node Nat)), nodesSize (n :: ns) = nodesSize [n] + nodesSize ns := by
    intro n ns
    cases n <;> simp [nodesSize]
  obtain ⟨ls, ts⟩ := c
  unfold Cursor.next at h
  split at h
  · rename_i heq
    simp only at heq h
    simp only [Option.some.injEq, Prod.mk.injEq] at h
    obtain ⟨-, rfl⟩ := h
    subst heq
    simp [Cursor.size, nodesSize]; omega
  · rename_i ty n ns ls' heq
    simp only at heq h
    simp only [Option.some.injEq, Prod.mk.injEq] at h
    obtain ⟨-, rfl⟩ := h
    subst heq
    rw [hv]
    simp only [Cursor.size, List.map_cons, List.sum_cons, hs n ns]; omega
  · rename_i heq
    simp only at heq h
    subst heq
    split at h
    · simp at h
    · simp only [Option.some.injEq, Prod.mk.injEq] at h
      obtain ⟨-, rfl⟩ := h
      simp [Cursor.size]; omega
    · simp only [Option.some.injEq, Prod.mk.injEq] at h
      obtain ⟨-, rfl⟩ := h
      rw [hv]
      simp [Cursor.size]; omega

theorem Cursor.next_none {c : Cursor} (h : c.next = none) : c.levels = [] ∧ c.top = [] := by
  obtain ⟨ls, ts⟩ := c
  cases ls with
  | cons l ls => obtain ⟨ty, ns⟩ := l; cases ns <;> simp [Cursor.next] at h
  | nil =>
    cases ts with
    | nil => simp
    | cons t ts => cases t <;> simp [Cursor.next] at h

/-- Enough `NEXT`s reach the end of the document. -/
theorem Cursor.run_nexts (n : Nat) : ∀ (c : Cursor), Cursor.size c < n →
    .ok { eventType := .streamEnd } ∈ c.run (List.replicate n .next) := by
  induction n with
  | zero => intro c h; omega
  | succ n ih =>
    intro c h
    simp only [List.replicate_succ, Cursor.run]
    cases hn : c.next with
    | none =>
      cases n <;> simp [atEnd, List.replicate_succ]
    | some x =>
      obtain ⟨e, c'⟩ := x
      have := Cursor.next_size hn
      simp only [List.mem_cons]
      exact .inr (ih c' (by omega))

end Ion.Spec
namespace Ion.RawReader
open Ion Ion.Spec Ion.Fields.Spec Ion.Scalars.Spec

theorem reads_cut {doc miss : Bytes} {all : List Top} {c : Cursor} {rs : List Request} {out : List (Except PyErr IonEvent)}
    (hcut : ∀ a segs, doc = a ++ miss → ¬ IsStream a segs) (h : Reads doc all miss c rs out) :
    (.ok { eventType := .streamEnd } ∉ out) ∧
    ((out = c.run rs) ∨ ∃ k < rs.length, out = (c.run rs).take k ++ atEnd { eventType := .incomplete } (rs.drop (k + 1))) := by
  induction h with
  | nil => exact ⟨by simp, .inl rfl⟩
  | next c c' e rs out h _ ih =>
    refine ⟨?_, ?_⟩
    · simp only [List.mem_cons, not_or]
      refine ⟨?_, ih.1⟩
      intro hc
      have := (next_flag h).2
      rw [← Except.ok.inj hc] at this
      simp [IonEventType.isStreamSignal] at this
    · rcases ih.2 with h2 | ⟨k, hk, h2⟩
      · left; simp only [Cursor.run, h, h2]
      · right
        refine ⟨k + 1, by simp; omega, ?_⟩
        simp only [Cursor.run, h, h2, List.take_succ_cons, List.cons_append, List.drop_succ_cons]
  | skip c c' e rs out h _ ih =>
    refine ⟨?_, ?_⟩
    · simp only [List.mem_cons, not_or]
      refine ⟨?_, ih.1⟩
      intro hc
      have := (skip_flag h).2
      rw [← Except.ok.inj hc] at this
      simp [IonEventType.isStreamSignal] at this
    · rcases ih.2 with h2 | ⟨k, hk, h2⟩
      · left; simp only [Cursor.run, h, h2]
      · right
        refine ⟨k + 1, by simp; omega, ?_⟩
        simp only [Cursor.run, h, h2, List.take_succ_cons, List.cons_append, List.drop_succ_cons]
  | refused c rs h => exact ⟨by simp, .inl (by simp only [Cursor.run, h])⟩
  | incomplete c r rs h =>
    refine ⟨by cases rs <;> simp [atEnd], .inr ⟨0, by simp, by simp⟩⟩
  | streamEnd c rs h =>
    obtain ⟨-, -, a, segs, h1, h2, -⟩ := h
    exact absurd h2 (hcut a segs h1)

/-- **C25**  A document is cut strictly inside a top-level value (`v1 ++ v2`, at `v1 | v2`).  Whatever the chunks and the
requests, the reader never reports the end of the stream; it answers as the full document would have been answered, up to
some request (if any) that it answers with `INCOMPLETE`, after which it accepts nothing but data. -/
theorem C25_truncation (pre v1 v2 post : Bytes) (n : Node Nat) (segs segs0 : List (List (Node Nat)))
    (hdoc : IsStream (pre ++ (v1 ++ v2) ++ post) segs) (hr : ∀ items ∈ segs, AllScalars Readable items)
    (hpre : IsStream pre segs0) (hv : IsValue (v1 ++ v2) n) (h1 : v1 ≠ []) (h2 : v2 ≠ []) (cs : List Bytes)
    (hc : Chunks cs (pre ++ v1)) (rs : List Request) :
    let out := pulls init cs (rs.map toCmd)
    let full := Cursor.run ⟨[], tops segs⟩ rs
    (.ok { eventType := .streamEnd } ∉ out) ∧
    (out = full ∨ ∃ k < rs.length, out = full.take k ++ atEnd { eventType := .incomplete } (rs.drop (k + 1))) := by
  refine reads_cut (doc := pre ++ (v1 ++ v2) ++ post) (miss := v2 ++ post) (all := tops segs) ?_
    (pulls_reads rs (sees_init hdoc hr (by simp) hc))
  intro a segs' ha
  have : a = pre ++ v1 := by
    have : pre ++ v1 ++ (v2 ++ post) = a ++ (v2 ++ post) := by rw [← ha]; simp
    exact (List.append_cancel_right this).symm
  rw [this]
  exact cut_not_stream hpre hv h1 h2 segs'

/-- **C25, continued.**  Whoever keeps asking with `NEXT` does get the `INCOMPLETE`, after a part of the events of the full
document; the reader does not stop answering before. -/
theorem C25_truncation_reported (pre v1 v2 post : Bytes) (n : Node Nat) (segs segs0 : List (List (Node Nat)))
    (hdoc : IsStream (pre ++ (v1 ++ v2) ++ post) segs) (hr : ∀ items ∈ segs, AllScalars Readable items)
    (hpre : IsStream pre segs0) (hv : IsValue (v1 ++ v2) n) (h1 : v1 ≠ []) (h2 : v2 ≠ []) (cs : List Bytes)
    (hc : Chunks cs (pre ++ v1)) (m : Nat) (hm : Cursor.size ⟨[], tops segs⟩ < m) :
    ∃ k < m, nexts cs m = (Cursor.run ⟨[], tops segs⟩ (List.replicate m .next)).take k ++
      atEnd { eventType := .incomplete } (List.replicate (m - (k + 1)) .next) := by
  obtain ⟨ha, hb⟩ := C25_truncation pre v1 v2 post n segs segs0 hdoc hr hpre hv h1 h2 cs hc (List.replicate m .next)
  rcases hb with hb | ⟨k, hk, hb⟩
  · rw [hb] at ha
    exact absurd (Cursor.run_nexts m _ hm) ha
  · exact ⟨k, by simpa using hk, by simpa [nexts] using hb⟩

/-! ## The blocking reader -/

/-- What `blocking_reader` makes of the answers of the reader beneath it: the end of the file after `INCOMPLETE` is an error,
and after `STREAM_END` the iteration is over. -/
def asBlocking : List (Except PyErr IonEvent) → List (Except PyErr IonEvent)
  | [] => []
  | .error err :: _ => [.error err]
  | .ok e :: rest =>
    if e.eventType = .streamEnd then .ok e :: (if rest = [] then [] else [.error .stopIteration])
    else if e.eventType = .incomplete then [.error .typeError]
    else .ok e :: asBlocking rest

/-- A result of `send`: an exception, or an event and a reader that fits it. -/
def Answer (r : Except PyErr IonEvent × Status) : Prop :=
  (∃ err, r = (.error err, .dead)) ∨ ∃ e st opens, r = (.ok e, st) ∧ StatusOk opens st ∧
    (e.eventType.isStreamSignal = true ↔ ∃ q s l k a t, st = .waiting q s l k a t) ∧
    (e.eventType = .streamEnd → e = ION_STREAM_END_EVENT)

theorem deliver_end {o : Outcome} {e : IonEvent} {st : Status} {opens : List IonType} (ho : OutOk opens o) (h : deliver o = (.ok e, st))
    (he : e.eventType = .streamEnd) : e = ION_STREAM_END_EVENT := by
  cases ho with
  | emit e q stack opens' h1 h2 h3 => simp only [deliver, Prod.mk.injEq, Except.ok.injEq] at h; rw [h.1, he] at h2; simp [IonEventType.isStreamSignal] at h2
  | block b q stack l k a t =>
    simp only [deliver, Prod.mk.injEq, Except.ok.injEq] at h
    obtain ⟨rfl, -⟩ := h
    cases b with
    | true => rfl
    | false => simp [ION_STREAM_INCOMPLETE_EVENT] at he
  | cont => simp [deliver] at h
  | error => simp [deliver] at h

theorem send_end {st st' : Status} {opens : List IonType} {cmd : Cmd} {e : IonEvent} (hst : StatusOk opens st) (h : send st cmd = (.ok e, st'))
    (he : e.eventType = .streamEnd) : e = ION_STREAM_END_EVENT := by
  cases hst with
  | dead => simp [send] at h
  | fresh q stack hs => cases cmd <;> simp [send] at h; exact deliver_end (run_fits (m := ⟨q, stack, .loop⟩) hs trivial) h he
  | waiting _ q stack l k a t hs ht ha =>
    cases cmd <;> simp [send] at h
    split at h
    · simp at h
    · rename_i hd
      refine deliver_end (run_fits (m := ⟨(feed q l k _).1, stack, .read (feed q l k _).2 k _ t⟩) hs ⟨ht, ?_⟩) h he
      simp [hd]
  | ready _ q stack hs =>
    cases cmd with
    | next => exact deliver_end (run_fits (m := ⟨q, stack, .loop⟩) hs trivial) h he
    | data d => simp [send] at h
    | skip =>
      simp only [send] at h
      split at h
      · simp at h
      · split at h
        · simp at h
        · split at h
          · simp at h
          · simp at h
          · rename_i f fs _ rem _
            have := startRead_fits (q := q) (skip := true) (atEnd := false) (task := .loop) (depth := f.depth) (limit := f.limit) (length := rem) hs trivial (by simp)
            split at h
            · rename_i hm
              rw [hm] at this
              cases this with | cont _ h1 h2 => exact deliver_end (run_fits h1 h2) h he
            · exact deliver_end this h he

theorem send_answer {st : Status} {opens : List IonType} (h : StatusOk opens st) (cmd : Cmd) : Answer (send st cmd) := by
  rcases send_fits h cmd with h1 | ⟨e, st', opens', h1, h2, h3, h4, h5⟩
  · exact .inl h1
  · exact .inr ⟨e, st', opens', h1, h3, h4, send_end h h1⟩

open Ion.Blocking in
theorem loop_absorb (cs : List Bytes) : ∀ {r : Except PyErr IonEvent × Status}, Answer r →
    (∃ err st cs', absorb r cs = (.error err, st, cs') ∧ loop RawReader.send IonEvent.eventType ION_STREAM_END_EVENT r cs = (.error err, .dead)) ∨
    (∃ e st cs' opens, absorb r cs = (.ok e, st, cs') ∧ e.eventType.isStreamSignal = false ∧ StatusOk opens st ∧
      loop RawReader.send IonEvent.eventType ION_STREAM_END_EVENT r cs = (.ok e, .active st cs')) ∨
    (∃ st, Waiting st ∧ absorb r cs = (.ok ION_STREAM_END_EVENT, st, []) ∧
      loop RawReader.send IonEvent.eventType ION_STREAM_END_EVENT r cs = (.ok ION_STREAM_END_EVENT, .ended)) ∨
    (∃ e st, Waiting st ∧ e.eventType = .incomplete ∧ absorb r cs = (.ok e, st, []) ∧
      loop RawReader.send IonEvent.eventType ION_STREAM_END_EVENT r cs = (.error .typeError, .dead)) := by
  induction cs with
  | nil =>
    intro r hr
    rcases hr with ⟨err, rfl⟩ | ⟨e, st, opens, rfl, h1, h2, h3⟩
    · exact .inl ⟨err, .dead, [], rfl, by rw [loop, atEof, atEofLoop.eq_def]; rfl⟩
    · right
      cases hsig : e.eventType.isStreamSignal with
      | false =>
        left
        refine ⟨e, st, [], opens, rfl, hsig, h1, ?_⟩
        have g1 : e.eventType ≠ .streamEnd := by intro hc; rw [hc] at hsig; simp [IonEventType.isStreamSignal] at hsig
        have g2 : e.eventType ≠ .incomplete := by intro hc; rw [hc] at hsig; simp [IonEventType.isStreamSignal] at hsig
        simp [loop, atEof, atEofLoop.eq_def _ _ _ (Except.ok e, st), g1, g2]
      | true =>
        right
        obtain ⟨q, s, l, k, a, t, rfl⟩ := h2.1 hsig
        cases he : e.eventType with
        | streamEnd =>
          obtain rfl := h3 he
          left
          exact ⟨_, ⟨q, s, l, k, a, t, rfl⟩, rfl, by simp [loop, atEof, atEofLoop.eq_def _ _ _ (Except.ok ION_STREAM_END_EVENT, _), he]⟩
        | incomplete =>
          right
          refine ⟨e, _, ⟨q, s, l, k, a, t, rfl⟩, he, rfl, ?_⟩
          simp only [loop, atEof]
          rw [atEofLoop.eq_def]
          simp only [he, reduceCtorEq, if_false, if_true, RawReader.send]
          rw [atEofLoop.eq_def]
          rfl
        | _ => rw [he] at hsig; simp [IonEventType.isStreamSignal] at hsig
  | cons d ds ih =>
    intro r hr
    rcases hr with ⟨err, rfl⟩ | ⟨e, st, opens, rfl, h1, h2, h3⟩
    · exact .inl ⟨err, .dead, d :: ds, rfl, rfl⟩
    · cases hsig : e.eventType.isStreamSignal with
      | false => exact .inr (.inl ⟨e, st, d :: ds, opens, by simp [absorb, hsig], hsig, h1, by simp [loop, hsig]⟩)
      | true =>
        have ha : absorb (.ok e, st) (d :: ds) = absorb (send st (.data d)) ds := by simp [absorb, hsig]
        have hl : loop RawReader.send IonEvent.eventType ION_STREAM_END_EVENT (.ok e, st) (d :: ds)
            = loop RawReader.send IonEvent.eventType ION_STREAM_END_EVENT (send st (.data d)) ds := by simp [loop, hsig]
        rw [ha, hl]
        exact ih (send_answer h1 _)

theorem blocking_run (rs : List Request) : ∀ {st : Status} {cs : List Bytes} {opens : List IonType}, StatusOk opens st →
    Blocking.run RawReader.send IonEvent.eventType ION_STREAM_END_EVENT (.active st cs) (rs.map toCmd)
      = asBlocking (pulls st cs (rs.map toCmd)) := by
  induction rs with
  | nil => intros; rfl
  | cons r rs ih =>
    intro st cs opens h
    simp only [List.map_cons, Blocking.run, pulls, Blocking.send, pull]
    rcases loop_absorb cs (send_answer h (toCmd r)) with ⟨err, st', cs', h1, h2⟩ | ⟨e, st', cs', opens', h1, h2, h3, h4⟩ |
        ⟨st', hw, h1, h2⟩ | ⟨e, st', hw, he, h1, h2⟩
    · rw [h1, h2]; rfl
    · rw [h1, h4]
      have g1 : e.eventType ≠ .streamEnd := by intro hc; rw [hc] at h2; simp [IonEventType.isStreamSignal] at h2
      have g2 : e.eventType ≠ .incomplete := by intro hc; rw [hc] at h2; simp [IonEventType.isStreamSignal] at h2
      simp only [asBlocking, g1, g2, if_false]
      rw [ih h3]
    · rw [h1, h2]
      have := pulls_waiting hw rs
      cases rs with
      | nil => rfl
      | cons r' rs =>
        have hp := this ION_STREAM_END_EVENT
        simp only [atEnd, List.cons.injEq, true_and] at hp
        simp only [asBlocking, ION_STREAM_END_EVENT, if_true, hp]
        rfl
    · rw [h1, h2]
      simp only [asBlocking, he, if_false, if_true, reduceCtorEq]

/-- **C25, blocking reader.**  Reading such a document through `blocking_reader` gives some of the events of the full document
and then an exception, never the end of the stream. -/
theorem C25_blocking_reader_raises (pre v1 v2 post : Bytes) (n : Node Nat) (segs segs0 : List (List (Node Nat)))
    (hdoc : IsStream (pre ++ (v1 ++ v2) ++ post) segs) (hr : ∀ items ∈ segs, AllScalars Readable items)
    (hpre : IsStream pre segs0) (hv : IsValue (v1 ++ v2) n) (h1 : v1 ≠ []) (h2 : v2 ≠ []) (cs : List Bytes)
    (hc : Chunks cs (pre ++ v1)) (m : Nat) (hm : Cursor.size ⟨[], tops segs⟩ < m) :
    ∃ k, Blocking.rawRun cs (List.replicate m .next)
      = (Cursor.run ⟨[], tops segs⟩ (List.replicate m .next)).take k ++ [.error .typeError] ∧
      k ≤ Cursor.size ⟨[], tops segs⟩ := by
  obtain ⟨k, hk, hout⟩ := C25_truncation_reported pre v1 v2 post n segs segs0 hdoc hr hpre hv h1 h2 cs hc m hm
  have hno := (C25_truncation pre v1 v2 post n segs segs0 hdoc hr hpre hv h1 h2 cs hc (List.replicate m .next)).1
  have hb : Blocking.rawRun cs (List.replicate m .next) = asBlocking (nexts cs m) := by
    have := blocking_run (List.replicate m .next) (cs := cs) statusOk_init
    simpa [Blocking.rawRun, nexts, toCmd] using this
  have key : ∀ (k m : Nat) (c : Cursor), k < m →
      (.ok { eventType := .streamEnd } ∉ (c.run (List.replicate m .next)).take k) → ∀ tl,
      asBlocking ((c.run (List.replicate m .next)).take k ++ atEnd { eventType := .incomplete } tl)
        = (c.run (List.replicate m .next)).take k ++ [.error .typeError] ∧ k ≤ Cursor.size c := by
    intro k
    induction k with
    | zero => intro m c _ _ tl; cases tl <;> simp [atEnd, asBlocking]
    | succ k ih =>
      intro m c hkm hno tl
      obtain ⟨m, rfl⟩ : ∃ m', m = m' + 1 := ⟨m - 1, by omega⟩
      simp only [List.replicate_succ, Cursor.run] at hno ⊢
      cases hn : c.next with
      | none =>
        rw [hn] at hno
        cases m <;> simp [atEnd, List.replicate_succ] at hno
      | some x =>
        obtain ⟨e, c'⟩ := x
        rw [hn] at hno
        simp only [List.take_succ_cons, List.mem_cons, not_or] at hno
        have hf := (next_flag hn).2
        have g1 : e.eventType ≠ .streamEnd := by intro hc; rw [hc] at hf; simp [IonEventType.isStreamSignal] at hf
        have g2 : e.eventType ≠ .incomplete := by intro hc; rw [hc] at hf; simp [IonEventType.isStreamSignal] at hf
        obtain ⟨i1, i2⟩ := ih m c' (by omega) hno.2 tl
        have := Cursor.next_size hn
        refine ⟨?_, by omega⟩
        simp only [List.take_succ_cons, List.cons_append, asBlocking, g1, g2, if_false, i1]
  have hno' : .ok { eventType := .streamEnd } ∉ (Cursor.run ⟨[], tops segs⟩ (List.replicate m .next)).take k := by
    intro hmem
    apply hno
    have : pulls init cs ((List.replicate m Request.next).map toCmd) = nexts cs m := rfl
    rw [this, hout]
    simp [hmem]
  obtain ⟨k1, k2⟩ := key k m ⟨[], tops segs⟩ hk hno' (List.replicate (m - (k + 1)) .next)
  exact ⟨k, by rw [hb, hout]; exact k1, k2⟩

end Ion.RawReader
