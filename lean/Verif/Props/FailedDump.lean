import Verif.Props.ManagedWriter
import Verif.Simple
import Verif.SimpleText
import Verif.Props.TextDumpLoad
import Verif.Props.LoadWhole
/-!
# What a failed dump leaves in the file

**C60** A `dump` in binary Ion that raises has written the version marker and nothing else.
-/
set_option linter.unusedSimpArgs false
set_option linter.unusedVariables false
namespace Ion.RawWriter
open Ion Ion.BufferTree

/-- The buffers that open containers hold. -/
def weight : List Frame → Nat
  | [] => 0
  | f :: fs => weight fs + (if f.pending.isEmpty then 1 else 2)

/-- As many containers are open in the buffer as the frames have opened. -/
def Buf (s : State) : Prop := s.buffer.containerNodes.length = weight s.frames

theorem end_length {b b' : BufferTree} {h : Bytes} (hb : b.endContainer h = .ok b') :
    b.containerNodes.length = b'.containerNodes.length + 1 := by
  unfold BufferTree.endContainer at hb
  split at hb
  · cases hb
  · cases hb
  · rename_i h1 h2
    simp only [Except.ok.injEq] at hb
    subst hb
    simp [h1]

theorem wrapUp_length {b b' : BufferTree} {as : List SymArg} (hb : wrapUp b as = .ok b') :
    b.containerNodes.length = b'.containerNodes.length + (if as.isEmpty then 0 else 1) := by
  unfold wrapUp at hb
  split at hb
  · simp only [Except.ok.injEq] at hb
    subst hb
    simp_all
  · rename_i hne
    simp only [bind, Except.bind] at hb
    split at hb
    · cases hb
    · rw [end_length hb, if_neg hne]

theorem prologue_length {s : State} {e : IonEvent} {b : BufferTree} (hb : prologue s e = .ok b) :
    b.containerNodes.length = s.buffer.containerNodes.length +
      (if e.eventType.beginsValue && !e.annotations.isEmpty then 1 else 0) := by
  have key : ∀ c : BufferTree, c.containerNodes.length = s.buffer.containerNodes.length →
      (if e.eventType.beginsValue && !e.annotations.isEmpty then c.startContainer else c) = b →
      b.containerNodes.length = s.buffer.containerNodes.length +
        (if e.eventType.beginsValue && !e.annotations.isEmpty then 1 else 0) := by
    intro c hc h
    subst h
    split
    · simp [BufferTree.startContainer, hc]
    · simp [hc]
  unfold prologue at hb
  simp only [bind, Except.bind, pure, Except.pure] at hb
  split at hb
  · cases hb
  · rename_i c hc
    simp only [Except.ok.injEq] at hb
    refine key c ?_ hb
    split at hc
    · split at hc
      · split at hc
        · cases hc
        · split at hc
          · cases hc
          · simp only [Except.ok.injEq] at hc
            subst hc
            rfl
      · simp only [Except.ok.injEq] at hc
        subst hc
        rfl
    · simp only [Except.ok.injEq] at hc
      subst hc
      rfl

theorem drain_length {b b' : BufferTree} {cs : List Bytes} (hb : b.drain = .ok (cs, b')) : b'.containerNodes.length = 0 := by
  unfold BufferTree.drain at hb
  split at hb
  · simp only [Except.ok.injEq, Prod.mk.injEq] at hb
    rw [← hb.2]
    rfl
  · cases hb

theorem buf_handle {s s' : State} {e : IonEvent} {cs : List Bytes} {w : WriteEventType} (h : Buf s)
    (hs : handle s e = .ok (cs, w, s')) : Buf s' := by
  unfold Buf at h ⊢
  unfold handle at hs
  simp only [bind, Except.bind, pure, Except.pure] at hs
  split at hs
  · cases hs
  rename_i b hb
  have hl := prologue_length hb
  cases hty : e.eventType with
  | scalar =>
    simp only [hty] at hs hl
    split at hs
    · cases hs
    split at hs
    · cases hs
    rename_i b' hb'
    have := wrapUp_length hb'
    simp only [Except.ok.injEq, Prod.mk.injEq] at hs
    obtain ⟨-, -, rfl⟩ := hs
    simp only [IonEventType.beginsValue, BufferTree.addScalarValue] at hl this ⊢
    cases hann : e.annotations.isEmpty <;> simp_all
  | streamEnd =>
    simp only [hty] at hs hl
    split at hs
    · split at hs
      · cases hs
      rename_i b' hb'
      have := drain_length hb'
      simp only [Except.ok.injEq, Prod.mk.injEq] at hs
      obtain ⟨-, -, rfl⟩ := hs
      have hfr : s.frames = [] := by simp_all
      simp only [this, hfr]
      rfl
    · cases hs
  | containerStart =>
    simp only [hty] at hs hl
    split at hs
    · cases hs
    split at hs
    · simp only [Except.ok.injEq, Prod.mk.injEq] at hs
      obtain ⟨-, -, rfl⟩ := hs
      simp only [IonEventType.beginsValue] at hl
      simp only [BufferTree.startContainer, weight, List.length_cons]
      cases hann : e.annotations.isEmpty <;> simp_all
    · cases hs
  | containerEnd =>
    simp only [hty] at hs hl
    split at hs
    · cases hs
    rename_i f fs hf
    split at hs
    · cases hs
    rename_i b1 hb1
    split at hs
    · cases hs
    rename_i b2 hb2
    have h1 := end_length hb1
    have h2 := wrapUp_length hb2
    simp only [Except.ok.injEq, Prod.mk.injEq] at hs
    obtain ⟨-, -, rfl⟩ := hs
    simp only [IonEventType.beginsValue, hf, weight] at hl h ⊢
    cases hp : f.pending.isEmpty <;> simp_all <;> omega
  | versionMarker => simp only [hty] at hs; cases hs
  | incomplete => simp only [hty] at hs; cases hs

/-- With no container open the stream can be ended. -/
theorem handle_streamEnd {s : State} (h : Buf s) (hf : s.frames = []) :
    ∃ cs w s', handle s ION_STREAM_END_EVENT = .ok (cs, w, s') := by
  unfold Buf at h
  rw [hf] at h
  have hnil : s.buffer.containerNodes = [] := List.length_eq_zero_iff.1 h
  have hp : prologue s ION_STREAM_END_EVENT = .ok s.buffer := prologue_plain s _ rfl
  refine ⟨s.buffer.containerNode.depthTraverse.filterMap id, .complete, { s with buffer := .empty }, ?_⟩
  unfold handle
  simp only [hp, bind, Except.bind, pure, Except.pure]
  simp [ION_STREAM_END_EVENT, hf, BufferTree.drain, hnil]

end Ion.RawWriter

namespace Ion.ManagedWriter
open Ion

/-- An event of a value. -/
def ValueEvent (e : IonEvent) : Prop :=
  e.eventType = .scalar ∨ e.eventType = .containerStart ∨ e.eventType = .containerEnd

/-- A state in which no version marker is due and the buffer agrees with the open containers. -/
structure Ready (s : State) : Prop where
  ivm : s.ivmNeeded = false
  buf : RawWriter.Buf s.value
  fresh : s.hasWritten = false → s.value.frames = []

theorem ready_value {imports : Option (List SymbolTable)} {s s' : State} {e : IonEvent} {w : WriteEventType} (hs : Ready s)
    (h : writeValue imports s e = .ok (w, s')) : Ready s' := by
  have hw := (writeValue_frames h).2
  unfold writeValue at h
  simp only [bind, Except.bind, pure, Except.pure] at h
  split at h
  · cases h
  split at h
  · cases h
  split at h
  · cases h
  rename_i q hq
  obtain ⟨cs, w', v⟩ := q
  simp only [Except.ok.injEq, Prod.mk.injEq] at h
  obtain ⟨-, rfl⟩ := h
  refine ⟨?_, RawWriter.buf_handle hs.buf hq, fun hc => by rw [hw] at hc; cases hc⟩
  simp only [hs.ivm]
  split <;> rfl

/-- Values do not write anything before the end of the stream. -/
theorem run_unflushed (imports : Option (List SymbolTable)) (evs : List IonEvent) (he : ∀ e ∈ evs, ValueEvent e) (s : State) (hs : Ready s) :
    (runEvents (step imports) s evs).1 = [] ∧ ∀ s', (runEvents (step imports) s evs).2 = .ok s' → Ready s' := by
  induction evs generalizing s with
  | nil =>
    refine ⟨rfl, fun s' h => ?_⟩
    simp only [runEvents, Except.ok.injEq] at h
    exact h ▸ hs
  | cons e evs ih =>
    have hv := he e (List.mem_cons_self ..)
    have h1 : e.eventType ≠ .versionMarker := by rcases hv with h | h | h <;> rw [h] <;> simp
    have h2 : e.eventType ≠ .streamEnd := by rcases hv with h | h | h <;> rw [h] <;> simp
    simp only [runEvents, step_value imports s e h1 h2, hs.ivm, Bool.and_false, Bool.false_eq_true, if_false]
    cases hw : writeValue imports s e with
    | error err => exact ⟨rfl, fun s' h => by cases h⟩
    | ok q =>
      obtain ⟨w, s1⟩ := q
      obtain ⟨k1, k2⟩ := ih (fun e h => he e (List.mem_cons_of_mem _ h)) s1 (ready_value hs hw)
      exact ⟨by simp [k1], fun s' h => k2 s' h⟩

/-- If the end of the stream is refused outside of containers, nothing is written. -/
theorem end_refused (imports : Option (List SymbolTable)) (s : State) (hs : Ready s) (hf : s.value.frames = []) (cs : List Bytes) (e : PyErr)
    (h : step imports s ION_STREAM_END_EVENT = (cs, .error e)) : cs = [] := by
  unfold step at h
  simp only [ION_STREAM_END_EVENT] at h
  split at h
  · split at h
    · simp only [Prod.mk.injEq] at h
      exact h.1.symm
    · obtain ⟨c, w, s', hh⟩ := RawWriter.handle_streamEnd hs.buf hf
      unfold ION_STREAM_END_EVENT at hh
      rw [hh] at h
      simp at h
  · simp at h

end Ion.ManagedWriter

namespace Ion.Simple
open Ion Ion.ManagedWriter

theorem valueEvent_obj (k : Kind) (ty : Option IonType) (v : Option PyVal) (f : Option SymArg) (b : Bool) (d : Nat) (et : IonEventType)
    (h : et = .scalar ∨ et = .containerStart) : ValueEvent (objEvent k et ty v f b d) := by
  unfold ValueEvent objEvent
  cases k <;> rcases h with rfl | rfl <;> simp

theorem valueEvent_end : ValueEvent endEvent := .inr (.inr rfl)

theorem andThen_events {a b : Sent} (ha : ∀ e ∈ a.1, ValueEvent e) (hb : ∀ e ∈ b.1, ValueEvent e) :
    ∀ e ∈ (Sent.andThen a b).1, ValueEvent e := by
  unfold Sent.andThen
  split
  · exact ha
  · intro e he
    rcases List.mem_append.1 he with h | h
    · exact ha e h
    · exact hb e h

mutual
theorem dumpObj_events (ts : Bool) (f : Option SymArg) (b : Bool) (d : Nat) : ∀ o, ∀ e ∈ (dumpObj ts f b d o).1, ValueEvent e
  | .none => by
    intro e he
    simp only [dumpObj, List.mem_singleton] at he
    exact he ▸ valueEvent_obj _ _ _ _ _ _ _ (.inl rfl)
  | .null ty ann => by
    intro e he
    simp only [dumpObj, List.mem_singleton] at he
    exact he ▸ valueEvent_obj _ _ _ _ _ _ _ (.inl rfl)
  | .scalar k v => by
    unfold dumpObj
    split
    · simp
    · split <;> intro e he <;> simp only [List.mem_singleton] at he
      · exact he ▸ valueEvent_obj _ _ _ _ _ _ _ (.inr rfl)
      · exact he ▸ valueEvent_obj _ _ _ _ _ _ _ (.inl rfl)
  | .seq k elems => by
    have hi := dumpElems_events ts (d + 1) elems
    unfold dumpObj
    split
    · simp
    · split
      · intro e he
        simp only [List.mem_singleton] at he
        exact he ▸ valueEvent_obj _ _ _ _ _ _ _ (.inr rfl)
      · split
        · refine andThen_events (fun e he => ?_) (andThen_events hi fun e he => ?_)
          · simp only [List.mem_singleton] at he
            exact he ▸ valueEvent_obj _ _ _ _ _ _ _ (.inr rfl)
          · simp only [List.mem_singleton] at he
            exact he ▸ valueEvent_end
        · simp
  | .dict k items => by
    have hi := dumpItems_events ts (d + 1) items
    unfold dumpObj
    split
    · simp
    · split
      · refine andThen_events (fun e he => ?_) (andThen_events hi fun e he => ?_)
        · simp only [List.mem_singleton] at he
          exact he ▸ valueEvent_obj _ _ _ _ _ _ _ (.inr rfl)
        · simp only [List.mem_singleton] at he
          exact he ▸ valueEvent_end
      · simp
  | .other c => by
    unfold dumpObj
    split <;> simp
theorem dumpElems_events (ts : Bool) (d : Nat) : ∀ os, ∀ e ∈ (dumpElems ts d os).1, ValueEvent e
  | [] => by simp [dumpElems]
  | o :: os => by
    unfold dumpElems
    exact andThen_events (dumpObj_events ts none false d o) (dumpElems_events ts d os)
theorem dumpItems_events (ts : Bool) (d : Nat) : ∀ os, ∀ e ∈ (dumpItems ts d os).1, ValueEvent e
  | [] => by simp [dumpItems]
  | (k, o) :: os => by
    unfold dumpItems
    exact andThen_events (dumpObj_events ts k true d o) (dumpItems_events ts d os)
end

/-- Calls that open as many containers as they close. -/
def Level (a : Sent) : Prop := a.2 = none → ∀ st, RawWriter.openTypes st a.1 = st

theorem level_then {a b : Sent} (ha : Level a) (hb : Level b) : Level (Sent.andThen a b) := by
  unfold Level Sent.andThen
  split
  · intro h; cases h
  · rename_i h0
    intro h st
    rw [RawWriter.openTypes_append, ha h0, hb h]

theorem level_inside {k : Kind} {ty : Option IonType} {v : Option PyVal} {f : Option SymArg} {b : Bool} {d : Nat} {a : Sent} (ha : Level a) :
    Level (Sent.andThen ([objEvent k .containerStart ty v f b d], none) (Sent.andThen a ([endEvent], none))) := by
  intro h st
  simp only [Sent.andThen] at h ⊢
  split at h
  · cases h
  · rename_i h0
    rw [RawWriter.openTypes_append, RawWriter.openTypes_append, ha h0]
    cases k <;> simp [RawWriter.openTypes, objEvent, endEvent]

theorem level_scalar (k : Kind) (ty : Option IonType) (v : Option PyVal) (f : Option SymArg) (b : Bool) (d : Nat) :
    Level ([objEvent k .scalar ty v f b d], none) := by
  intro h st
  cases k <;> simp [RawWriter.openTypes, objEvent]

theorem level_error (es : List IonEvent) (e : PyErr) : Level (es, some e) := fun h => by cases h

mutual
theorem dumpObj_level (ts : Bool) (f : Option SymArg) (b : Bool) (d : Nat) : ∀ o, Level (dumpObj ts f b d o)
  | .none => by unfold dumpObj; exact level_scalar _ _ _ _ _ _
  | .null ty ann => by unfold dumpObj; exact level_scalar _ _ _ _ _ _
  | .scalar k v => by
    unfold dumpObj
    split
    · exact level_error _ _
    · split
      · exact level_error _ _
      · exact level_scalar _ _ _ _ _ _
  | .seq k elems => by
    have hi := dumpElems_level ts (d + 1) elems
    unfold dumpObj
    split
    · exact level_error _ _
    · split
      · exact level_error _ _
      · split
        · exact level_inside hi
        · exact level_error _ _
  | .dict k items => by
    have hi := dumpItems_level ts (d + 1) items
    unfold dumpObj
    split
    · exact level_error _ _
    · split
      · exact level_inside hi
      · exact level_error _ _
  | .other c => by
    unfold dumpObj
    split <;> exact level_error _ _
theorem dumpElems_level (ts : Bool) (d : Nat) : ∀ os, Level (dumpElems ts d os)
  | [] => fun _ _ => rfl
  | o :: os => by
    unfold dumpElems
    exact level_then (dumpObj_level ts none false d o) (dumpElems_level ts d os)
theorem dumpItems_level (ts : Bool) (d : Nat) : ∀ os, Level (dumpItems ts d os)
  | [] => fun _ _ => rfl
  | (k, o) :: os => by
    unfold dumpItems
    exact level_then (dumpObj_level ts k true d o) (dumpItems_level ts d os)
end

/-- **C60** (binary).  If `dump` with `binary=True` raises - for whatever object, options and imports, and wherever in the
object the cause is - exactly the version marker has been written to the file. -/
theorem C60_failed_dump_binary_partial (imports : Option (List SymbolTable)) (sequenceAsStream tupleAsSexp : Bool) (o : PyObj) (written : List Bytes)
    (e : PyErr) (h : dump imports sequenceAsStream tupleAsSexp o = (written, .error e)) : written = [[0xE0, 0x01, 0x00, 0xEA]] := by
  have h0 : ManagedWriter.step imports ManagedWriter.init ION_VERSION_MARKER_EVENT =
      ([ManagedWriter.IVM], .ok (.needsInput, { ManagedWriter.init with ivmNeeded := false })) := rfl
  have hr : Ready { ManagedWriter.init with ivmNeeded := false } := ⟨rfl, rfl, fun _ => rfl⟩
  have he := dumpElems_events tupleAsSexp 0 (topLevel sequenceAsStream o)
  have hl := dumpElems_level tupleAsSexp 0 (topLevel sequenceAsStream o)
  unfold dump feed at h
  simp only [Sent.andThen, List.singleton_append, runEvents, h0] at h
  generalize dumpElems tupleAsSexp 0 (topLevel sequenceAsStream o) = sent at h he hl
  obtain ⟨k1, k2⟩ := run_unflushed imports sent.1 he _ hr
  have k3 := run_history imports sent.1 { ManagedWriter.init with ivmNeeded := false }
  cases hrun : runEvents (ManagedWriter.step imports) { ManagedWriter.init with ivmNeeded := false } sent.1 with
  | mk cs r =>
    rw [hrun] at h k1 k2
    simp only at k1
    subst k1
    cases r with
    | error err =>
      simp only [List.append_nil, Prod.mk.injEq] at h
      exact h.1.symm
    | ok s =>
      simp only at h
      cases hx : sent.2 with
      | some err =>
        rw [hx] at h
        simp only [List.append_nil, Prod.mk.injEq] at h
        exact h.1.symm
      | none =>
        rw [hx] at h
        have hf : s.value.frames = [] := by
          have := (k3 s [] hrun (fun _ => rfl)).1
          rw [hl hx] at this
          simpa [ManagedWriter.init] using this
        cases hst : ManagedWriter.step imports s ION_STREAM_END_EVENT with
        | mk c q =>
          rw [hst] at h
          cases q with
          | ok q => simp at h
          | error err =>
            have := end_refused imports s (k2 s rfl) hf c err hst
            subst this
            simp only [List.append_nil, Prod.mk.injEq] at h
            exact h.1.symm

/-- A list of a bool and an object of a class without an Ion type. -/
def badList : PyObj := .seq (.plain .list) [.scalar (.plain .bool) (.bool true), .other .object]

/-- Non-vacuity: as a stream, and as a value. -/
example : dump none true false badList = ([[0xE0, 0x01, 0x00, 0xEA]], .error .typeError) ∧
    dump none false false badList = ([[0xE0, 0x01, 0x00, 0xEA]], .error .typeError) := by
  have key : ∀ b, ∃ cs, dump none b false badList = (cs, .error .typeError) := by
    intro b
    have : (dump none b false badList).2 = .error .typeError := by cases b <;> decide +kernel
    exact ⟨_, Prod.ext rfl this⟩
  constructor
  · obtain ⟨cs, h⟩ := key true
    rw [h, C60_failed_dump_binary_partial none true false badList cs _ h]
  · obtain ⟨cs, h⟩ := key false
    rw [h, C60_failed_dump_binary_partial none false false badList cs _ h]

/-- **C60, what is missing**  Text is written as it is produced: a failed `dump` of a stream leaves the values before the cause, and the file can be loaded as if nothing were missing. -/
theorem C60_failed_dump_text (F : FloatText) :
    dumpText F none false true false badList = (Text.chars "$ion_1_0 true".toList, .error .typeError) ∧
    ∃ vs, load F [] false (.str [Text.chars "$ion_1_0 true".toList]) = some (.ok vs) ∧ vs.length = 1 := by
  have h1 : ionType false .bool = .ok .bool := by decide +kernel
  have h2 : ionType false .object = .error .typeError := by decide +kernel
  have h3 : dumpElems false 0 (topLevel true badList) =
      ([objEvent (.plain .bool) .scalar (some .bool) (some (.bool true)) none false 0], some .typeError) := by
    simp [badList, topLevel, dumpElems, dumpObj, h1, h2, Kind.type, Sent.andThen, IonType.isContainer]
  refine ⟨?_, loadLen_sound (m := 80) (n := 60) rfl⟩
  unfold dumpText
  rw [h3]
  rfl

end Ion.Simple
