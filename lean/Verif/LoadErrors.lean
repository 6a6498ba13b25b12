import Verif.LoadTotal
import Verif.LoadWhole
import Verif.Props.Catalog
/-!
# The exceptions that loading binary data can raise

An invariant of the binary reader: every read is covered by the bytes of the queue, so that the queue never raises; and the
exceptions of the parsers, of the symbol tables and of `load`.
-/
set_option linter.unusedSimpArgs false
namespace Ion.Errors
open Ion

/-- The exceptions that remain possible: none of `IndexError`, `KeyError`, `AssertionError`, `StopIteration`, nor the end of a step
bound of the model. -/
def Known : PyErr → Prop
  | .indexError | .keyError | .assertionError | .stopIteration | .modelFuel => False
  | _ => True

/-- It raises known exceptions only. -/
def Only {α : Type} (x : Except PyErr α) : Prop := ∀ e, x = .error e → Known e

theorem only_ok {α : Type} {a : α} : Only (.ok a : Except PyErr α) := fun _ h => by cases h
theorem only_err {α : Type} {e : PyErr} (h : Known e) : Only (.error e : Except PyErr α) := fun _ h' => by cases h'; exact h

theorem only_bind {α β : Type} {x : Except PyErr α} {f : α → Except PyErr β} (hx : Only x) (hf : ∀ a, Only (f a)) : Only (x >>= f) := by
  cases x with
  | error e => intro e' h; cases h; exact hx e rfl
  | ok a => exact hf a

theorem only_map {α β : Type} {x : Except PyErr α} {f : α → β} (hx : Only x) : Only (x.map f) := by
  cases x with
  | error e => intro e' h; cases h; exact hx e rfl
  | ok a => exact only_ok

theorem varLoop_only (data : Bytes) : ∀ v, Only (Fields.parseVarLoop v data) := by
  induction data with
  | nil => intro v; exact only_err trivial
  | cons b data ih =>
    intro v
    unfold Fields.parseVarLoop
    dsimp only
    split
    · exact only_ok
    · exact ih _

theorem varComponents_only (data : Bytes) (s : Bool) : Only (Fields.parseVarComponents data s) := by
  unfold Fields.parseVarComponents
  split
  · split
    · exact only_err trivial
    · dsimp only
      split
      · exact only_ok
      · exact only_bind (varLoop_only _ _) fun _ => only_ok
  · exact only_bind (varLoop_only _ _) fun _ => only_ok

theorem var_only (data : Bytes) (s : Bool) : Only (Fields.parseVar data s) :=
  only_bind (varComponents_only _ _) fun _ => only_ok

theorem varLoop_shorter (data : Bytes) : ∀ {v r : Nat} {rest : Bytes}, Fields.parseVarLoop v data = .ok (r, rest) → rest.length < data.length := by
  induction data with
  | nil => intro v r rest h; cases h
  | cons b data ih =>
    intro v r rest h
    unfold Fields.parseVarLoop at h
    dsimp only at h
    split at h
    · cases h; simp
    · have := ih h
      simp only [List.length_cons]; omega

theorem sids_only : ∀ (n : Nat) (data : Bytes), data.length ≤ n → Only (Fields.parseSids n data) := by
  intro n
  induction n with
  | zero =>
    intro data h
    cases data with
    | nil => exact only_ok
    | cons b d => simp at h
  | succ n ih =>
    intro data h
    cases data with
    | nil => exact only_ok
    | cons b d =>
      unfold Fields.parseSids
      cases hv : Fields.parseVarLoop 0 (b :: d) with
      | error e => intro e' h'; cases h'; exact varLoop_only _ _ _ hv
      | ok p =>
        have := varLoop_shorter _ hv
        obtain ⟨v, rest⟩ := p
        exact only_bind (x := Fields.parseSids n rest) (ih rest (by simp only at this; omega)) fun _ => only_ok

theorem fix_only (p : Nat) (d : Dec) : Only (Dec.fix p d) := by
  unfold Dec.fix
  dsimp only
  repeat' split
  all_goals first | exact only_ok | exact only_err trivial

theorem scaleb_only (p : Nat) (d : Dec) (n : Int) : Only (Dec.scaleb p d n) := by
  unfold Dec.scaleb
  split
  · exact only_err trivial
  · exact fix_only _ _

theorem decimal_only (data : Bytes) : Only (Scalars.parseDecimal data) := by
  unfold Scalars.parseDecimal
  refine only_bind (var_only _ _) fun a => ?_
  dsimp only
  split
  · exact only_ok
  · exact scaleb_only _ _ _

theorem float_only (data : Bytes) : Only (Scalars.parseFloat data) := by
  unfold Scalars.parseFloat
  repeat' split
  all_goals first | exact only_ok | exact only_err trivial

theorem normalise_only (a b : Option Int) (c : Option Dec) : Only (Timestamp.normalise a b c) := by
  unfold Timestamp.normalise
  simp only [bind, Except.bind, pure, Except.pure, throw, throwThe, MonadExceptOf.throw]
  repeat' split
  all_goals first
    | exact only_ok
    | exact only_err trivial
    | (rename_i h; intro e he; cases he; exact fix_only _ _ _ h)

theorem new_only (a : TimestampArgs) : Only (Timestamp.new a) := by
  unfold Timestamp.new
  refine only_bind (normalise_only _ _ _) fun p => ?_
  dsimp only
  have h : ∀ d : DateTime, Only (DateTime.new d) := fun d => by
    unfold DateTime.new
    split
    · exact only_ok
    · exact only_err trivial
  split
  · exact only_err trivial
  · exact only_bind (h _) fun _ => only_ok

theorem addMicros_only (d : DateTime) (n : Int) : Only (d.addMicros n) := by
  unfold DateTime.addMicros
  dsimp only
  repeat' split
  all_goals first | exact only_ok | exact only_err trivial

theorem adjust_only (a : TimestampArgs) : Only (Timestamp.adjustFromUtcFields a) := by
  unfold Timestamp.adjustFromUtcFields
  refine only_bind (new_only _) fun t => ?_
  split
  · exact only_ok
  · split
    · exact only_ok
    · exact only_bind (addMicros_only _ _) fun _ => new_only _

theorem timestamp_only (data : Bytes) : Only (Scalars.parseTimestamp data) := by
  unfold Scalars.parseTimestamp
  refine only_bind (varComponents_only _ _) fun p => ?_
  refine only_bind ?_ fun tz => ?_
  · split
    · exact only_ok
    · refine only_bind ?_ fun _ => only_ok
      unfold offsetTZInfo
      split
      · exact only_err trivial
      · exact only_ok
  refine only_bind (varLoop_only _ _) fun p => ?_
  refine only_bind ?_ fun p => ?_
  · split
    · exact only_ok
    · exact only_bind (varLoop_only _ _) fun _ => only_ok
  refine only_bind ?_ fun p => ?_
  · split
    · exact only_ok
    · exact only_bind (varLoop_only _ _) fun _ => only_ok
  refine only_bind ?_ fun p => ?_
  · split
    · exact only_ok
    · exact only_bind (varLoop_only _ _) fun _ => only_bind (varLoop_only _ _) fun _ => only_ok
  refine only_bind ?_ fun p => ?_
  · split
    · exact only_ok
    · exact only_bind (varLoop_only _ _) fun _ => only_ok
  refine only_bind ?_ fun p => adjust_only _
  split
  · exact only_ok
  · exact only_bind (decimal_only _) fun _ => only_ok

theorem decodeFirst_only (d : Bytes) : Only (Utf8.decodeFirst d) := by
  unfold Utf8.decodeFirst
  dsimp only
  repeat' split
  all_goals first | exact only_ok | exact only_err trivial

theorem decode_only (n : Nat) : ∀ d : Bytes, d.length ≤ n → Only (Utf8.decode d) := by
  induction n with
  | zero =>
    intro d hd
    cases d with
    | nil => unfold Utf8.decode; exact only_ok
    | cons b d => simp at hd
  | succ n ih =>
    intro d hd
    cases d with
    | nil => unfold Utf8.decode; exact only_ok
    | cons b d =>
      unfold Utf8.decode
      split
      · rename_i e h; exact only_err (decodeFirst_only _ _ h)
      · rename_i c rest h
        have := Utf8.decodeFirst_lt h
        dsimp only
        cases hr : Utf8.decode rest with
        | error e => exact only_err (ih rest (by simp only [List.length_cons] at this hd; omega) e hr)
        | ok t => exact only_ok

theorem value_only (k : RawReader.ScalarKind) (data : Bytes) : Only (RawReader.scalarValue k data) := by
  cases k <;> simp only [RawReader.scalarValue]
  case float => exact only_map (float_only _)
  case decimal => exact only_map (decimal_only _)
  case timestamp => exact only_map (timestamp_only _)
  case string => exact only_map (decode_only _ _ (Nat.le_refl _))
  all_goals exact only_ok

end Ion.Errors

namespace Ion.Errors.Binary
open Ion Ion.Errors Ion.RawReader

/-! ## The queue -/

/-- The queue is in order: it has no empty segments, the offset is within the first, and the size is right. -/
def QOk (q : Queue) : Prop :=
  (∀ s ∈ q.segments, s ≠ []) ∧ (match q.segments with | [] => q.offset = 0 | s :: _ => q.offset < s.length) ∧
    q.size = (q.segments.flatten.drop q.offset).length

theorem qok_empty : QOk BufferQueue.empty := ⟨by simp [BufferQueue.empty], rfl, rfl⟩

theorem QOk.nonneg {q : Queue} (h : QOk q) : 0 ≤ q.size := by rw [h.2.2]; omega

theorem qok_extend {q : Queue} (h : QOk q) {d : Bytes} (hd : d ≠ []) : QOk (q.extend d) ∧ (q.extend d).size = q.size + d.length := by
  obtain ⟨h1, h2, h3⟩ := h
  refine ⟨⟨?_, ?_, ?_⟩, rfl⟩
  · intro s hs
    simp only [BufferQueue.extend, List.mem_append, List.mem_singleton] at hs
    rcases hs with hs | rfl
    · exact h1 s hs
    · exact hd
  · simp only [BufferQueue.extend]
    cases hq : q.segments with
    | nil =>
      rw [hq] at h2
      simp only [List.nil_append] at h2 ⊢
      rw [h2]
      exact List.length_pos_iff.2 hd
    | cons s l => rw [hq] at h2; exact h2
  · simp only [BufferQueue.extend, List.flatten_append, List.flatten_cons, List.flatten_nil, List.append_nil, List.length_drop, List.length_append]
    rw [h3]
    have : q.offset ≤ q.segments.flatten.length := by
      cases hq : q.segments with
      | nil => rw [hq] at h2; simp only at h2; omega
      | cons s l => rw [hq] at h2; simp only [List.flatten_cons, List.length_append] at h2 ⊢; omega
    simp only [List.length_drop]
    omega

theorem qok_read {q : Queue} (h : QOk q) {n : Nat} (hn : (n : Int) ≤ q.size) (sk : Bool) :
    ∃ d q', q.read n sk = .ok (d, q') ∧ QOk q' ∧ q'.size = q.size - n := by
  obtain ⟨h1, h2, h3⟩ := h
  obtain ⟨segs', off', g1, g2, g3, g4⟩ := Queue.readLoop_spec sk q.segments q.offset n [] ((q.segments.headD []).take q.offset) h1
    (by revert h2; cases q.segments with
        | nil => exact id
        | cons s l => exact fun h => ⟨h, List.suffix_refl _⟩) (by omega)
  refine ⟨[] ++ if sk = true then [] else List.take n (List.drop q.offset q.segments.flatten), { segments := segs', offset := off', size := q.size - n, position := q.position + n }, ?_, ⟨g2, ?_, ?_⟩, ?_⟩
  · unfold BufferQueue.read
    rw [if_neg (by omega)]
    simp only [bind, Except.bind, pure, Except.pure, Int.toNat_natCast]
    rw [g1]
  · dsimp only
    cases hq : segs' with
    | nil => rw [hq] at g4; exact g4
    | cons s l => rw [hq] at g4; exact g4.1
  · dsimp only
    rw [g3, h3]
    simp only [List.length_drop] at h3 ⊢
    omega
  · rfl

theorem qok_readByte {q : Queue} (h : QOk q) (hn : 1 ≤ q.size) : ∃ b q', q.readByte = .ok (b, q') ∧ QOk q' := by
  obtain ⟨h1, h2, h3⟩ := h
  unfold BufferQueue.readByte
  rw [if_neg (by omega)]
  cases hq : q.segments with
  | nil => rw [hq] at h3; simp at h3; omega
  | cons s l =>
    rw [hq] at h1 h2 h3
    simp only at h2
    simp only [List.flatten_cons] at h3
    dsimp only
    rw [List.getElem?_eq_getElem h2]
    dsimp only
    split
    · rename_i he
      refine ⟨_, _, rfl, fun s' hs => h1 s' (by simp [hs]), ?_, ?_⟩
      · dsimp only
        cases l with
        | nil => rfl
        | cons s' l => exact List.length_pos_iff.2 (h1 s' (by simp))
      · simp only [List.drop_zero, h3, List.length_drop, List.length_append]
        omega
    · refine ⟨_, _, rfl, ?_, ?_, ?_⟩
      · simpa only [hq] using h1
      · simp only [hq]; omega
      · simp only [hq, h3, List.flatten_cons, List.length_drop, List.length_append]; omega

theorem qok_skip {q : Queue} (h : QOk q) {n : Int} (hn : 0 ≤ n) : ∃ r q', q.skip n = .ok (r, q') ∧ QOk q' ∧ (q.size ≤ n → q'.size = 0) := by
  unfold BufferQueue.skip
  split
  · exact ⟨_, _, rfl, ⟨by simp, rfl, rfl⟩, fun _ => rfl⟩
  · obtain ⟨k, rfl⟩ := Int.eq_ofNat_of_zero_le hn
    obtain ⟨d, q', h1, h2, h3⟩ := qok_read h (n := k) (by omega) true
    simp only [bind, Except.bind, h1]
    exact ⟨_, _, rfl, h2, fun hc => by omega⟩

/-! ## The machine -/

/-- How many bytes a handler reads after its wait. -/
def need : Task → Nat
  | .typeOctet .. => 1
  | .varByte .. => 1
  | .ivmTail => 3
  | .scalarBody _ _ n => n
  | .annData _ n => n
  | .loop => 0

/-- The bytes that the next handler reads are there, or will be when the wait is over. -/
def CtlOk (q : Queue) : Ctl → Prop
  | .read l sk _ t => if sk then t = .loop ∧ (0 < l → q.size = 0) else (need t : Int) ≤ q.size + l
  | .resume t => (need t : Int) ≤ q.size
  | _ => True

def MOk (m : Machine) : Prop := QOk m.queue ∧ CtlOk m.queue m.ctl

/-- The innermost container has been entered and none of it has been read beyond its end. -/
def SkipOk (q : Queue) (st : List Frame) : Prop := ∃ f fs l, st = f :: fs ∧ f.limit = some l ∧ q.position ≤ l

def OutOk : Outcome → Prop
  | .cont m => MOk m
  | .emit e q st => QOk q ∧ Only e.value ∧ (e.eventType = .containerStart → SkipOk q st)
  | .block _ m => MOk m ∧ ∀ l s a t, m.ctl = .read l s a t → 0 < l
  | .error e => Known e

theorem remaining_only (d : Nat) (l : Option Int) (q : Queue) : Only (remaining d l q) := by
  unfold remaining
  repeat' split
  all_goals first | exact only_ok | exact only_err trivial

theorem startRead_ok {q : Queue} {stack : List Frame} {depth : Nat} {limit : Option Int} {length : Int} {skip atEnd : Bool} {task : Task}
    (h : QOk q) (h1 : skip = true → task = .loop ∧ 0 ≤ length) (h2 : skip = false → (need task : Int) ≤ length) : OutOk (startRead q stack depth limit length skip atEnd task) := by
  unfold startRead
  split
  · rename_i e he; exact remaining_only _ _ _ _ he
  · split
    · trivial
    · dsimp only
      split
      · rename_i hs
        obtain ⟨ht, hl⟩ := h1 hs
        have := h.nonneg
        obtain ⟨r, q', g1, g2, g3⟩ := qok_skip h (n := if length - q.size ≥ 0 then q.size else q.size + (length - q.size)) (by split <;> omega)
        rw [g1]
        refine ⟨g2, ?_⟩
        simp only [CtlOk, hs, if_true]
        refine ⟨ht, fun hp => g3 ?_⟩
        split <;> omega
      · rename_i hs
        have := h2 (by simpa using hs)
        refine ⟨h, ?_⟩
        have e : skip = false := by simpa using hs
        simp only [CtlOk, e, Bool.false_eq_true, if_false]
        omega

/-- A scalar event, or a known exception. -/
def ScalarOk : Except PyErr IonEvent → Prop
  | .error e => Known e
  | .ok e => Only e.value ∧ e.eventType = .scalar

theorem scalarEvent_ok {ctx : Ctx} {q : Queue} {ty : IonType} {v : Except PyErr (Option PyVal)} (hv : Only v) : ScalarOk (scalarEvent ctx q ty v) := by
  unfold scalarEvent
  dsimp only
  repeat' split
  all_goals trivial

theorem emit_ok {q : Queue} {stack : List Frame} (h : QOk q) : ∀ {x : Except PyErr IonEvent}, ScalarOk x →
    OutOk (match x with | .error err => .error err | .ok e => .emit e q stack) := by
  intro x hx
  cases x with
  | error e => exact hx
  | ok e => exact ⟨h, hx.1, fun hc => by rw [hx.2] at hc; cases hc⟩

theorem finishScalar_ok {q : Queue} {stack : List Frame} {ctx : Ctx} {k : ScalarKind} {data : Bytes} (h : QOk q) : OutOk (finishScalar q stack ctx k data) := by
  unfold finishScalar
  split
  · trivial
  · exact emit_ok h (scalarEvent_ok (value_only k data))

theorem containerStart_ok {q : Queue} {stack : List Frame} {ctx : Ctx} {ty : IonType} {len : Nat} (h : QOk q) : OutOk (containerStart q stack ctx ty len) := by
  unfold containerStart
  dsimp only
  split
  · trivial
  · exact ⟨h, only_ok, fun _ => ⟨_, _, _, rfl, rfl, by omega⟩⟩

theorem lengthed_ok {q : Queue} {stack : List Frame} {ctx : Ctx} {h : LenHandler} {len : Nat} (hq : QOk q) : OutOk (lengthed q stack ctx h len) := by
  cases h with
  | nop =>
    simp only [lengthed]
    split
    · trivial
    · split
      · exact startRead_ok hq (fun _ => ⟨rfl, by omega⟩) (fun h => by cases h)
      · exact ⟨hq, trivial⟩
  | scalar k =>
    simp only [lengthed]
    split
    · exact finishScalar_ok hq
    · exact startRead_ok hq (fun h => by cases h) (fun _ => Int.le_refl _)
  | container ty => exact containerStart_ok hq
  | annotation =>
    simp only [lengthed]
    split
    · trivial
    · exact ⟨hq, trivial⟩

theorem handle_ok {q : Queue} {stack : List Frame} {ctx : Ctx} {h : Handler} (hq : QOk q) : OutOk (handle q stack ctx h) := by
  cases h with
  | invalid => trivial
  | ivm =>
    simp only [handle]
    split
    · trivial
    · exact startRead_ok hq (fun h => by cases h) (fun _ => Int.le_refl _)
  | static ty v => exact emit_ok hq (scalarEvent_ok only_ok)
  | fixed h l => exact lengthed_ok hq
  | «variable» h => exact ⟨hq, trivial⟩
  | ordered => exact ⟨hq, trivial⟩

theorem containerValue_ok {q : Queue} {f : Frame} {stack : List Frame} {fld : Option SymbolToken} (hq : QOk q) : OutOk (containerValue q f stack fld) :=
  startRead_ok hq (fun h => by cases h) (fun _ => Int.le_refl _)

theorem useVar_ok {q : Queue} {stack : List Frame} {ctx : Ctx} {v : Nat} {use : VarUse} (hq : QOk q) : OutOk (useVar q stack ctx v use) := by
  cases use with
  | field =>
    simp only [useVar]
    split
    · trivial
    · exact containerValue_ok hq
  | length h => exact lengthed_ok hq
  | ordered =>
    simp only [useVar]
    split
    · trivial
    · exact containerStart_ok hq
  | annLength =>
    simp only [useVar]
    split
    · trivial
    · exact startRead_ok hq (fun h => by cases h) (fun _ => Int.le_refl _)

theorem resume_ok {q : Queue} {stack : List Frame} {task : Task} (hq : QOk q) (hn : (need task : Int) ≤ q.size) : OutOk (resume q stack task) := by
  cases task with
  | typeOctet ctx b =>
    obtain ⟨o, q', h1, h2⟩ := qok_readByte hq hn
    simp only [resume, h1]
    split
    · trivial
    · exact handle_ok h2
  | varByte ctx value use =>
    obtain ⟨o, q', h1, h2⟩ := qok_readByte hq hn
    simp only [resume, h1]
    split
    · exact useVar_ok h2
    · exact ⟨h2, trivial⟩
  | ivmTail =>
    obtain ⟨d, q', h1, h2, -⟩ := qok_read hq (n := 3) hn false
    simp only [resume]
    rw [show q.read 3 = .ok (d, q') from h1]
    dsimp only
    split
    · trivial
    · exact ⟨h2, only_ok, fun hc => by cases hc⟩
  | scalarBody ctx k n =>
    obtain ⟨d, q', h1, h2, -⟩ := qok_read hq hn false
    simp only [resume]
    rw [show q.read (n : Int) = .ok (d, q') from h1]
    exact finishScalar_ok h2
  | annData ctx n =>
    obtain ⟨d, q', h1, h2, -⟩ := qok_read hq hn false
    simp only [resume]
    rw [show q.read (n : Int) = .ok (d, q') from h1]
    dsimp only
    split
    · rename_i e he; exact sids_only _ _ (Nat.le_refl _) _ he
    · split
      · trivial
      · split
        · trivial
        · exact startRead_ok h2 (fun h => by cases h) (fun _ => Int.le_refl _)
  | loop => exact ⟨hq, trivial⟩

theorem micro_ok {m : Machine} (h : MOk m) : OutOk (micro m) := by
  obtain ⟨hq, hc⟩ := h
  unfold micro
  split
  · unfold containerLoop
    split
    · trivial
    · split
      · exact ⟨hq, only_ok, fun hc => by cases hc⟩
      · split
        · exact ⟨hq, trivial⟩
        · exact containerValue_ok hq
  · split
    · exact startRead_ok hq (fun h => by cases h) (fun _ => Int.le_refl _)
    · rename_i hz
      have := hq.nonneg
      exact ⟨hq, by simp only [CtlOk, need]; omega⟩
  · rename_i l sk a t hm
    rw [hm] at hc
    split
    · refine ⟨hq, ?_⟩
      have := hq.nonneg
      simp only [CtlOk] at hc ⊢
      cases sk with
      | true => simp only [if_true] at hc; rw [hc.1]; exact this
      | false => simp only [Bool.false_eq_true, if_false] at hc; omega
    · exact ⟨⟨hq, by rw [hm]; exact hc⟩, fun l' s' a' t' h' => by rw [hm] at h'; cases h'; omega⟩
  · rename_i task hm
    rw [hm] at hc
    exact resume_ok hq hc

theorem run_ok (m : Machine) (h : MOk m) : OutOk (run m) := by
  induction hn : measure m using Nat.strongRecOn generalizing m with
  | _ n ih =>
    have hm := micro_ok h
    rw [run_eq]
    cases ho : micro m with
    | cont m' =>
      rw [ho] at hm
      have := micro_decreases ho
      exact ih (measure m') (by omega) m' hm rfl
    | emit e q st => rw [ho] at hm; exact hm
    | block a m' => rw [ho] at hm; exact hm
    | error e => rw [ho] at hm; exact hm

/-! ## The reader -/

def StOk : RawReader.Status → Prop
  | .fresh q _ => QOk q
  | .ready q _ _ => QOk q
  | .waiting q _ l s a t => QOk q ∧ CtlOk q (.read l s a t) ∧ 0 < l
  | .dead => True

/-- A container may be skipped now. -/
def MaySkip : RawReader.Status → Prop
  | .ready q st _ => SkipOk q st
  | _ => True

/-- What is known of an answer. -/
def AnswerOk (r : Except PyErr IonEvent × RawReader.Status) : Prop :=
  match r.1 with
  | .error e => Known e
  | .ok e => StOk r.2 ∧ r.2 ≠ .dead ∧ Only e.value ∧ (e.eventType = .containerStart → MaySkip r.2) ∧ (e.eventType.isStreamSignal = true → e.depth = none)

theorem deliver_ok {n : Nat} {o : Outcome} (h : OutOk o) (hp : PotLe n o) (hc : ∀ m, o ≠ .cont m) : AnswerOk (deliver o) := by
  cases o with
  | cont m => exact (hc m rfl).elim
  | emit e q st => exact ⟨h.1, by simp [deliver], h.2.1, h.2.2, fun hs => by rw [hp.1] at hs; cases hs⟩
  | error e => exact h
  | block a m =>
    obtain ⟨⟨l, s, b, t, hm⟩, -⟩ := hp
    obtain ⟨⟨hq, hk⟩, hl⟩ := h
    have hl := hl _ _ _ _ hm
    rw [hm] at hk
    simp only [deliver, hm]
    refine ⟨⟨hq, hk, hl⟩, by simp, ?_, ?_, ?_⟩
    · cases a <;> exact only_ok
    · cases a <;> exact fun _ => trivial
    · cases a <;> exact fun _ => rfl

theorem feed_ok {q : Queue} {l : Int} {sk : Bool} {a b : Bool} {t : Task} {d : Bytes} (hq : QOk q) (hc : CtlOk q (.read l sk a t)) (hl : 0 < l) (hd : d ≠ []) :
    QOk (feed q l sk d).1 ∧ CtlOk (feed q l sk d).1 (.read (feed q l sk d).2 sk b t) := by
  have hdl := List.length_pos_iff.2 hd
  simp only [CtlOk] at hc
  unfold feed
  dsimp only
  cases sk with
  | true =>
    simp only [if_true] at hc ⊢
    split
    · have hne : d.drop (d.length - (l - d.length).natAbs) ≠ [] := by
        intro h0
        have := congrArg List.length h0
        simp only [List.length_drop, List.length_nil] at this
        omega
      obtain ⟨g1, -⟩ := qok_extend hq hne
      refine ⟨g1, ?_⟩
      simp only [CtlOk, if_true]
      exact ⟨hc.1, fun h => by omega⟩
    · refine ⟨hq, ?_⟩
      simp only [CtlOk, if_true]
      exact ⟨hc.1, fun h => hc.2 hl⟩
  | false =>
    simp only [Bool.false_eq_true, if_false] at hc ⊢
    obtain ⟨g1, g2⟩ := qok_extend hq hd
    refine ⟨g1, ?_⟩
    simp only [CtlOk, Bool.false_eq_true, if_false]
    rw [g2]; omega

theorem run_answer {m : Machine} (h : MOk m) : AnswerOk (deliver (run m)) := deliver_ok (run_ok m h) (run_pot m) (run_total m).1

/-- One request to the binary reader. -/
theorem send_ok {st : RawReader.Status} {cmd : Cmd} (h : StOk st) (hd : st ≠ .dead) (hs : cmd = .skip → MaySkip st) : AnswerOk (RawReader.send st cmd) := by
  cases st with
  | dead => exact (hd rfl).elim
  | fresh q stack =>
    cases cmd with
    | next => exact run_answer ⟨h, trivial⟩
    | _ => trivial
  | ready q stack top =>
    cases cmd with
    | data d => trivial
    | next => exact run_answer ⟨h, trivial⟩
    | skip =>
      simp only [RawReader.send]
      split
      · trivial
      · split
        · trivial
        · rename_i f fs
          obtain ⟨f', fs', l, h1, h2, h3⟩ := hs rfl
          cases h1
          split
          · rename_i e he; exact remaining_only _ _ _ _ he
          · trivial
          · rename_i rem hr
            have hrem : 0 ≤ rem := by
              unfold remaining at hr
              rw [h2] at hr
              split at hr
              · cases hr
              · cases hr; omega
            have hp := startRead_ok (q := q) (stack := f :: fs) (depth := f.depth) (limit := f.limit) (length := rem) (skip := true) (atEnd := false) (task := .loop) h (fun _ => ⟨rfl, hrem⟩) (fun h => by cases h)
            split
            · rename_i m hm
              rw [hm] at hp
              exact run_answer hp
            · rename_i o hne
              exact deliver_ok hp (startRead_pot (n := _) (Nat.le_refl _)) hne
  | waiting q stack l sk a t =>
    cases cmd with
    | data d =>
      simp only [RawReader.send]
      split
      · trivial
      · rename_i hne
        have := feed_ok (b := a && decide (d = [])) h.1 h.2.1 h.2.2 hne
        exact run_answer this
    | _ => trivial

end Ion.Errors.Binary

namespace Ion.Errors.Managed
open Ion Ion.Errors Ion.Errors.Binary Ion.ManagedReader
open Ion.RawReader (Cmd)

/-! ## Symbol tables -/

theorem resolve_only (ctx : Context) (a : SymArg) : Only (ctx.resolve a) := by
  unfold Context.resolve
  repeat' split
  all_goals first | exact only_ok | exact only_err trivial

theorem resolveValue_only (ctx : Context) (v : PyVal) : Only (ctx.resolveValue v) := by
  unfold Context.resolveValue
  split
  · exact resolve_only _ _
  · exact only_err trivial

theorem new_only {tt : TableType} {syms : List (Option Text)} {name : Option Text} {version : Option Int} {imports : Option (List SymbolTable)} {b : Bool} :
    Only (SymbolTable.new tt syms name version imports b) := by
  unfold SymbolTable.new
  dsimp only
  repeat' split
  all_goals first | exact only_ok | exact only_err trivial

/-- Every name of the catalog is registered with at least one version. -/
def CatOk (c : Catalog) : Prop := ∀ name versions, PyDict.get c name = some versions → versions ≠ []

theorem maxVersion_mem : ∀ {ks : List (Option Int)}, ks ≠ [] → ∃ k ∈ ks, Catalog.maxVersion ks = some k := by
  intro ks h
  cases ks with
  | nil => exact (h rfl).elim
  | cons k ks =>
    refine ⟨_, ?_, rfl⟩
    clear h
    induction ks generalizing k with
    | nil => simp
    | cons x ks ih =>
      simp only [List.foldl_cons]
      split
      · have := ih x; simp only [List.mem_cons] at this ⊢; tauto
      · have := ih k; simp only [List.mem_cons] at this ⊢; tauto

theorem registered_ok {history : List SymbolTable} {c : Catalog} (h : Catalog.Spec.registerAll history = .ok c) : CatOk c := by
  have key : ∀ (ts : List SymbolTable) (c c' : Catalog), CatOk c → ts.foldlM (fun c t => Catalog.register c t) c = .ok c' → CatOk c' := by
    intro ts
    induction ts with
    | nil => intro c c' hc h; cases h; exact hc
    | cons t ts ih =>
      intro c c' hc h
      rw [List.foldlM_cons] at h
      cases hr : Catalog.register c t with
      | error e => rw [hr] at h; cases h
      | ok c1 =>
        rw [hr] at h
        refine ih c1 c' ?_ h
        unfold Catalog.register at hr
        repeat' split at hr
        all_goals try cases hr
        intro name versions hv
        rw [PyDict.get_set] at hv
        split at hv
        · cases hv
          intro h0
          have := PyDict.get_set_self ((PyDict.get c t.name).getD []) t.version t
          rw [h0] at this
          cases this
        · exact hc name versions hv
  exact key history [] c (by intro n v h; cases h) h

theorem catalog_only {c : Catalog} (hc : CatOk c) (name : Text) (v m : Option Int) : Only (Catalog.resolve c name v m) := by
  unfold Catalog.resolve
  split
  · exact only_err trivial
  · split
    · exact only_err trivial
    · split
      · exact only_err trivial
      · split
        · split
          · exact only_err trivial
          · unfold placeholderSymbolTable
            repeat' split
            all_goals first | exact only_err trivial | exact new_only
        · rename_i version _ _ versions hv
          obtain ⟨k, hk, h1⟩ := maxVersion_mem (ks := PyDict.keys versions) (by
            have := hc _ _ hv
            cases versions with
            | nil => exact (this rfl).elim
            | cons x l => simp [PyDict.keys])
          have h2 := (PyDict.mem_keys_iff versions k).1 hk
          dsimp only
          split
          · rename_i hn
            exfalso
            split at hn
            · cases hn
            · rw [h1] at hn
              simp only at hn
              rw [hn] at h2
              cases h2
          · split
            · exact only_ok
            · split
              · exact only_err trivial
              · unfold substituteSymbolTable
                dsimp only
                repeat' split
                all_goals first | exact only_err trivial | exact new_only

/-! ## The managed reader -/

theorem string_only {v : Except PyErr (Option PyVal)} (h : Only v) : Only (stringValue v) := by
  unfold stringValue
  split
  · exact only_err (h _ rfl)
  · exact only_ok
  · exact only_ok
  · exact only_err trivial

theorem int_only {v : Except PyErr (Option PyVal)} (h : Only v) : Only (intValue v) := by
  unfold intValue
  split
  · exact only_err (h _ rfl)
  · exact only_ok
  · exact only_ok
  · exact only_err trivial

theorem field_only (ctx : Context) (f : Option SymArg) : Only (fieldThunk ctx f) := by
  unfold fieldThunk
  split
  · exact only_ok
  · split
    · exact only_err (resolve_only _ _ _ (by assumption))
    · exact only_ok

theorem annotations_only (ctx : Context) : ∀ (as : List SymArg), Only (annotationsThunk ctx as) := by
  intro as
  induction as with
  | nil => exact only_ok
  | cons a as ih =>
    unfold annotationsThunk
    split
    · exact only_err (resolve_only _ _ _ (by assumption))
    · split
      · exact only_err (ih _ (by assumption))
      · exact only_ok

theorem value_only {ctx : Context} {e : IonEvent} (h : Only e.value) : Only (valueThunk ctx e) := by
  unfold valueThunk
  split
  · exact only_err (h _ (by assumption))
  · exact only_ok
  · split
    · split
      · exact only_err (resolveValue_only _ _ _ (by assumption))
      · exact only_ok
    · exact only_ok

/-- A handler raises known exceptions only, keeps the catalog, and skips only what has just started. -/
def ReplyOk (ctx : Context) (e : IonEvent) : Except PyErr Reply → Prop
  | .error err => Known err
  | .ok (.ask c _) => c = .skip → e.eventType = .containerStart
  | .ok (.done ctx') => ctx'.catalog = ctx.catalog

theorem setDesc_only (d : ImportDesc) (f : Option Text) {e : IonEvent} (h : Only e.value) : Only (setDesc d f e) := by
  unfold setDesc
  repeat' split
  all_goals first
    | exact only_ok
    | exact only_err (string_only h _ (by assumption))
    | exact only_err (int_only h _ (by assumption))

theorem handle_ok {ctx : Context} (hc : CatOk ctx.catalog) (h : Handler) {e : IonEvent} (hv : Only e.value) : ReplyOk ctx e (handle ctx h e) := by
  unfold handle
  split
  · intro hc; cases hc
  · split
    · unfold onTable
      split
      · split
        · exact new_only _ (by assumption)
        · rfl
      · split
        · exact field_only _ _ _ (by assumption)
        · dsimp only
          split
          · rename_i hs
            split
            · intro hc; cases hc
            · split
              · intro hc; cases hc
              · exact fun _ => hs
          · split
            · unfold inheritTable
              split
              · exact hv _ (by assumption)
              · trivial
              · split
                · exact resolveValue_only _ _ _ (by assumption)
                · repeat' split
                  all_goals (intro hc; cases hc)
            · intro hc; cases hc
    · unfold onSymbols
      split
      · intro hc; cases hc
      · split
        · rename_i hs; exact fun _ => hs
        · split
          · split
            · exact string_only hv _ (by assumption)
            · intro hc; cases hc
          · intro hc; cases hc
    · unfold onImports
      split
      · intro hc; cases hc
      · split
        · rename_i hs
          split
          · intro hc; cases hc
          · exact fun _ => hs
        · intro hc; cases hc
    · unfold onDesc
      split
      · unfold endDesc
        split
        · intro hc; cases hc
        · split
          · exact catalog_only hc _ _ _ _ (by assumption)
          · intro hc; cases hc
      · split
        · rename_i hs; exact fun _ => hs
        · split
          · trivial
          · split
            · exact resolve_only _ _ _ (by assumption)
            · split
              · exact setDesc_only _ _ hv _ (by assumption)
              · intro hc; cases hc

/-- What the reader does with an event. -/
def ActOk (ctx : Context) (e : IonEvent) : Except PyErr Action → Prop
  | .error err => Known err
  | .ok (.ask c ctx' _) => (c = .skip → e.eventType = .containerStart) ∧ ctx'.catalog = ctx.catalog
  | .ok (.give ctx' _) => ctx'.catalog = ctx.catalog

theorem isTextMarker_only (ctx : Context) {e : IonEvent} (hv : Only e.value) : Only (isTextMarker ctx e) := by
  unfold isTextMarker
  split
  · split
    · exact only_err (hv _ (by assumption))
    · exact only_ok
    · split
      · exact only_err (resolveValue_only _ _ _ (by assumption))
      · exact only_ok
  · exact only_ok

theorem startsTable_only (ctx : Context) (e : IonEvent) : Only (startsTable ctx e) := by
  unfold startsTable
  split
  · unfold Context.hasTableAnnotation
    split
    · exact only_ok
    · split
      · exact only_err (resolve_only _ _ _ (by assumption))
      · exact only_ok
  · exact only_ok

theorem onUser_ok (ctx : Context) {h : Option Handler} {e : IonEvent} (hv : Only e.value) (hd : h.isSome = true → e.depth = none) : ActOk ctx e (onUser ctx h e) := by
  unfold onUser
  split
  · rename_i h0
    have hn : ¬ h.isSome = true := fun hs => by rw [hd hs] at h0; cases h0
    split
    · split
      · trivial
      · exact ⟨fun hc => (by cases hc), rfl⟩
    · split
      · exact isTextMarker_only ctx hv _ (by assumption)
      · exact ⟨fun hc => (by cases hc), rfl⟩
      · split
        · exact startsTable_only ctx e _ (by assumption)
        · exact ⟨fun hc => (by cases hc), rfl⟩
        · rfl
  · rfl

theorem react_ok {ctx : Context} (hc : CatOk ctx.catalog) (h : Option Handler) {e : IonEvent} (hv : Only e.value) (hd : e.eventType.isStreamSignal = true → e.depth = none) : ActOk ctx e (react ctx h e) := by
  unfold react
  split
  · split
    · rename_i hs; exact onUser_ok ctx hv fun _ => hd hs
    · rename_i hd' _
      have := handle_ok hc hd' hv
      split
      · rename_i hx; rw [hx] at this; exact this
      · rename_i hx; rw [hx] at this; exact ⟨this, rfl⟩
      · rename_i hx; rw [hx] at this; exact ⟨fun hc => by (cases hc), this⟩
  · exact onUser_ok ctx hv fun h => by cases h

/-- The state of the managed reader. -/
def MgOk : ManagedReader.Status RawReader.Status → Prop
  | .live r ctx _ => StOk r ∧ r ≠ .dead ∧ CatOk ctx.catalog
  | .dead => False

/-- An event all of whose attributes raise known exceptions only. -/
def EventOk (e : Event) : Prop := Only e.value ∧ Only e.fieldName ∧ Only e.annotations

/-- What is known of an answer. -/
def MgAnswer (r : Except PyErr Event × ManagedReader.Status RawReader.Status) : Prop :=
  match r.1 with
  | .error e => Known e
  | .ok e => EventOk e ∧ MgOk r.2

def MgSkip : ManagedReader.Status RawReader.Status → Prop
  | .live r _ _ => MaySkip r
  | .dead => True

theorem send_ok {S : ManagedReader.Status RawReader.Status} {cmd : Cmd} {r : Except PyErr Event × ManagedReader.Status RawReader.Status}
    (h : ManagedReader.send RawReader.send S cmd = some r) : MgOk S → (cmd = .skip → MgSkip S) → MgAnswer r := by
  refine ManagedReader.send.partial_correctness RawReader.send (fun S cmd r => MgOk S → (cmd = .skip → MgSkip S) → MgAnswer r) ?_ S cmd r h
  intro f ih S cmd r h hS hk
  cases S with
  | dead => exact hS.elim
  | live st ctx hd =>
    obtain ⟨h1, h2, h3⟩ := hS
    have ha := Binary.send_ok (cmd := cmd) h1 h2 hk
    dsimp only at h
    cases hr : RawReader.send st cmd with
    | mk a st' =>
      rw [hr] at ha h
      cases a with
      | error err => cases h; exact ha
      | ok e =>
        obtain ⟨g1, g2, g3, g4, g5⟩ := ha
        dsimp only at h
        have hx := react_ok h3 hd g3 g5
        cases hact : react ctx hd e with
        | error err => rw [hact] at h hx; cases h; exact hx
        | ok act =>
          rw [hact] at h hx
          cases act with
          | give ctx' h' =>
            cases h
            refine ⟨⟨value_only g3, field_only _ _, annotations_only _ _⟩, g1, g2, ?_⟩
            rw [show ctx'.catalog = ctx.catalog from hx]; exact h3
          | ask c ctx' h' =>
            exact ih _ _ _ h ⟨g1, g2, by rw [hx.2]; exact h3⟩ fun hc => g4 (hx.1 hc)

end Ion.Errors.Managed

namespace Ion.Errors.Load
open Ion Ion.Errors Ion.Errors.Managed Ion.Simple Ion.Spec
open Ion.ManagedReader (Event Nests StatusOk)
open Ion.RawReader (Cmd)

/-! ## `load` -/

/-- The invariant of the binary reader for the nesting of its events. -/
abbrev Inv : List IonType → Bool → Bool → RawReader.Status → Prop := fun opens _ skipping st => RawReader.StatusOk opens st ∧ (skipping = true → ManagedReader.binarySkips st)

def LoadInv (opens : List IonType) : Source (ManagedReader.Status RawReader.Status) → Prop
  | .active S _ => MgOk S ∧ ∃ opened, StatusOk RawReader.send Inv opens opened S
  | _ => False

/-- What is known of an answer of the blocking reader. -/
def NextOk (opens : List IonType) (o : Except PyErr Event × Source (ManagedReader.Status RawReader.Status)) : Prop :=
  match o.1 with
  | .error err => Known err
  | .ok e => EventOk e ∧ ((e.eventType = .streamEnd ∧ opens = []) ∨ (e.eventType ≠ .streamEnd ∧ ∃ opens', nestUser true opens e = some opens' ∧ LoadInv opens' o.2))

theorem await_ok {r : Except PyErr Event} {S : ManagedReader.Status RawReader.Status} {cs : List Bytes} {o : Except PyErr Event × Source (ManagedReader.Status RawReader.Status)}
    (h : awaitEvent bstep r S cs = some o) : ∀ {opens : List IonType} {opened : Bool}, MgAnswer (r, S) →
    (∀ e, r = .ok e → ∃ opens', nestUser true opens e = some opens' ∧ StatusOk RawReader.send Inv opens' (lastStarts opened e.eventType) S) → NextOk opens o := by
  refine awaitEvent.partial_correctness bstep (fun r S cs o => ∀ {opens : List IonType} {opened : Bool}, MgAnswer (r, S) →
    (∀ e, r = .ok e → ∃ opens', nestUser true opens e = some opens' ∧ StatusOk RawReader.send Inv opens' (lastStarts opened e.eventType) S) → NextOk opens o) ?_ r S cs o h
  intro f ih r S cs o h opens opened ha hr
  cases r with
  | error err => cases h; exact ha
  | ok x =>
    dsimp only at h
    obtain ⟨opens', g1, g2⟩ := hr x rfl
    obtain ⟨a1, a2⟩ := ha
    by_cases hx : x.eventType.isStreamSignal = true
    · rw [if_pos hx] at h
      have e1 : opens' = opens ∧ (x.eventType ≠ .incomplete → opens = []) := by
        cases ht : x.eventType <;> simp [ht, IonEventType.isStreamSignal] at hx <;> simp only [nestUser, ht] at g1
        · exact ⟨(Option.some.inj g1).symm, fun h => (h rfl).elim⟩
        · split at g1
          · rename_i h0; exact ⟨(Option.some.inj g1).symm, fun _ => h0 trivial⟩
          · cases g1
      obtain ⟨rfl, e2⟩ := e1
      rw [ManagedReader.last_signal hx] at g2
      cases cs with
      | nil =>
        dsimp only at h
        split at h
        · simp only [bind, Option.bind_eq_some_iff] at h
          obtain ⟨⟨y, S1⟩, h1, h2⟩ := h
          exact ih _ _ _ _ h2 (Managed.send_ok h1 a2 (by simp)) (fun e he => status_send ManagedReader.binary_nests g2 (cmd := .next) (by simp) (by rw [show ManagedReader.send RawReader.send S .next = _ from h1, show y = .ok e from he]))
        · rename_i hni
          cases h
          exact ⟨⟨only_ok, only_ok, only_ok⟩, .inl ⟨rfl, e2 hni⟩⟩
      | cons d ds =>
        simp only [bind, Option.bind_eq_some_iff] at h
        obtain ⟨⟨y, S1⟩, h1, h2⟩ := h
        exact ih _ _ _ _ h2 (Managed.send_ok h1 a2 (by simp)) (fun e he => status_send ManagedReader.binary_nests g2 (cmd := .data d) (by simp) (by rw [show ManagedReader.send RawReader.send S (.data d) = _ from h1, show y = .ok e from he]))
    · rw [if_neg hx] at h
      cases h
      refine ⟨a1, .inr ⟨fun hc => hx (by rw [hc]; rfl), opens', g1, a2, _, g2⟩⟩

theorem next_ok {src : Source (ManagedReader.Status RawReader.Status)} {opens : List IonType} (hs : LoadInv opens src)
    {o : Except PyErr Event × Source (ManagedReader.Status RawReader.Status)} (h : nextEvent bstep src = some o) : NextOk opens o := by
  cases src with
  | ended => exact hs.elim
  | dead => exact hs.elim
  | active S cs =>
    obtain ⟨h1, opened, h2⟩ := hs
    simp only [nextEvent, bind, Option.bind_eq_some_iff] at h
    obtain ⟨⟨y, S1⟩, h3, h4⟩ := h
    exact await_ok h4 (opened := opened) (Managed.send_ok h3 h1 (by simp)) (fun e he => status_send ManagedReader.binary_nests h2 (cmd := .next) (by simp) (by rw [show ManagedReader.send RawReader.send S .next = _ from h3, show y = .ok e from he]))

theorem newContainer_only {e : Event} (h : EventOk e) : Only (newContainer e) := by
  unfold newContainer
  split
  · exact only_ok
  · exact only_err trivial
  · exact only_err (h.2.2 _ (by assumption))

theorem add_only {out : Out} {e : Event} {o : PyObj} (h : EventOk e) : Only (out.add e o) := by
  unfold Out.add
  split
  · exact only_ok
  · split
    · exact only_err (h.2.1 _ (by assumption))
    · exact only_err trivial
    · exact only_ok

theorem construct_only (ty : IonType) (v : PyVal) : Only (construct ty v) := by
  unfold construct
  split
  all_goals try exact only_ok
  · split
    · rename_i he
      refine only_err ?_
      unfold rebuildTime at he
      split at he <;> exact Errors.new_only _ _ he
    · exact only_ok
  · split
    · rename_i he
      refine only_err ?_
      unfold SymbolToken.new at he
      split at he <;> cases he
      trivial
    · exact only_ok
  · exact only_err trivial

theorem scalarObj_only {e : Event} (h : EventOk e) : Only (scalarObj e) := by
  unfold scalarObj
  split
  · exact only_err (h.1 _ (by assumption))
  · split
    · exact only_err trivial
    · split
      · split
        · exact only_err (h.2.2 _ (by assumption))
        · exact only_ok
      · split
        · split
          · exact only_err (h.2.2 _ (by assumption))
          · exact only_ok
        · split
          · exact only_err (construct_only _ _ _ (by assumption))
          · split
            · exact only_err (h.2.2 _ (by assumption))
            · exact only_ok

/-- The loop of `_load`: known exceptions only, and an inner loop leaves the reader after the end of its container. -/
theorem loop_ok {endType : IonEventType} {out : Out} {src : Source (ManagedReader.Status RawReader.Status)} {r : Except PyErr (Out × Source (ManagedReader.Status RawReader.Status))}
    (h : loadLoop bstep endType out src = some r) : ∀ {opens : List IonType}, LoadInv opens src → (endType = .streamEnd ∧ opens = [] ∨ endType = .containerEnd ∧ opens ≠ []) →
    Only r ∧ ∀ p, r = .ok p → endType = .containerEnd → LoadInv opens.tail p.2 := by
  refine loadLoop.partial_correctness bstep (fun endType out src r => ∀ {opens : List IonType}, LoadInv opens src → (endType = .streamEnd ∧ opens = [] ∨ endType = .containerEnd ∧ opens ≠ []) →
    Only r ∧ ∀ p, r = .ok p → endType = .containerEnd → LoadInv opens.tail p.2) ?_ endType out src r h
  intro f ih endType out src r h opens hs ht
  simp only [bind, Option.bind_eq_some_iff] at h
  obtain ⟨⟨a, src'⟩, h1, h⟩ := h
  have hn := next_ok hs h1
  cases a with
  | error err => cases h; exact ⟨only_err hn, fun p hp => by cases hp⟩
  | ok e =>
    obtain ⟨he, hn⟩ := hn
    dsimp only at h hn
    split at h
    · rename_i hty
      cases h
      refine ⟨only_ok, fun p hp hc => ?_⟩
      cases hp
      rcases hn with ⟨h2, -⟩ | ⟨h2, opens', h3, h4⟩
      · rw [hty, hc] at h2; cases h2
      · rw [hc] at hty
        simp only [nestUser, hty] at h3
        split at h3
        · split at h3
          · cases h3; exact h4
          · cases h3
        · cases h3
    · rename_i hty
      have hse : e.eventType ≠ .streamEnd := by
        intro hc
        rcases hn with ⟨-, h0⟩ | ⟨h2, -⟩
        · rcases ht with ⟨ht, -⟩ | ⟨-, ho⟩
          · rw [ht] at hty; exact hty hc
          · exact ho h0
        · exact h2 hc
      obtain ⟨opens', h3, h4⟩ : ∃ opens', nestUser true opens e = some opens' ∧ LoadInv opens' src' := by
        rcases hn with ⟨h2, -⟩ | ⟨-, h⟩
        · exact (hse h2).elim
        · exact h
      split at h
      · rename_i hcs
        have ho : ∃ ty, opens' = ty :: opens := by
          simp only [nestUser, hcs] at h3
          split at h3
          · split at h3
            · cases h3; exact ⟨_, rfl⟩
            · cases h3
          · cases h3
        obtain ⟨ty, rfl⟩ := ho
        cases hc : newContainer e with
        | error err => rw [hc] at h; cases h; exact ⟨only_err (newContainer_only he _ hc), fun p hp => by cases hp⟩
        | ok c =>
          rw [hc] at h
          simp only [Option.bind_eq_some_iff] at h
          obtain ⟨q, h5, h⟩ := h
          obtain ⟨k1, k2⟩ := ih _ _ _ _ h5 h4 (.inr ⟨rfl, by simp⟩)
          cases q with
          | error err => cases h; exact ⟨only_err (k1 _ rfl), fun p hp => by cases hp⟩
          | ok q =>
            dsimp only at h
            cases hadd : out.add e (q.1.obj c.2.1 c.2.2) with
            | error err => rw [hadd] at h; cases h; exact ⟨only_err (add_only he _ hadd), fun p hp => by cases hp⟩
            | ok out' =>
              rw [hadd] at h
              exact ih _ _ _ _ h (k2 q rfl rfl) ht
      · rename_i hcs
        have ho : opens' = opens := by
          cases hev : e.eventType with
          | containerStart => exact (hcs hev).elim
          | containerEnd =>
            exfalso
            rcases ht with ⟨-, ho⟩ | ⟨ht, -⟩
            · simp only [nestUser, hev, ho] at h3; cases h3
            · rw [ht] at hty; exact hty hev
          | streamEnd => exact (hse hev).elim
          | versionMarker => simp only [nestUser, hev] at h3; cases h3
          | incomplete => simp only [nestUser, hev] at h3; exact (Option.some.inj h3).symm
          | scalar =>
            simp only [nestUser, hev] at h3
            split at h3
            · exact (Option.some.inj h3).symm
            · cases h3
        subst ho
        split at h
        · cases hc : scalarObj e with
          | error err => rw [hc] at h; cases h; exact ⟨only_err (scalarObj_only he _ hc), fun p hp => by cases hp⟩
          | ok o =>
            rw [hc] at h
            dsimp only at h
            cases hadd : out.add e o with
            | error err => rw [hadd] at h; cases h; exact ⟨only_err (add_only he _ hadd), fun p hp => by cases hp⟩
            | ok out' =>
              rw [hadd] at h
              exact ih _ _ _ _ h h4 ht
        · exact ih _ _ _ _ h h4 ht

end Ion.Errors.Load

namespace Ion.Simple
open Ion Ion.RawReader Ion.ManagedReader

/-! ## Evaluating `load` on given binary data

`binaryN` computes what `load` gives; it is only used for examples. -/

def managedN : Nat → Status RawReader.Status → Cmd → Option (Except PyErr Event × Status RawReader.Status)
  | 0, _, _ => none
  | n + 1, st, cmd => match st with
    | .dead => some (.error .stopIteration, .dead)
    | .live r ctx h => match RawReader.send r cmd with
      | (.error err, _) => some (.error err, .dead)
      | (.ok e, r') => match react ctx h e with
        | .error err => some (.error err, .dead)
        | .ok (.give ctx' h') => some (.ok (thunkEvent ctx' e), .live r' ctx' h')
        | .ok (.ask cmd' ctx' h') => managedN n (.live r' ctx' h') cmd'

theorem managedN_sound : ∀ {n : Nat} {st : Status RawReader.Status} {cmd : Cmd} {r : Except PyErr Event × Status RawReader.Status}, managedN n st cmd = some r → bstep st cmd = some r := by
  intro n
  induction n with
  | zero => intro st cmd r h; cases h
  | succ n ih =>
    intro st cmd r h
    unfold bstep
    rw [ManagedReader.send.eq_def]
    unfold managedN at h
    cases st with
    | dead => exact h
    | live rs ctx hd =>
      dsimp only at h ⊢
      cases hr : RawReader.send rs cmd with
      | mk a r' =>
        rw [hr] at h
        cases a with
        | error err => exact h
        | ok e =>
          dsimp only at h ⊢
          cases hx : react ctx hd e with
          | error err => rw [hx] at h; exact h
          | ok act =>
            rw [hx] at h
            cases act with
            | give ctx' h' => exact h
            | ask c ctx' h' => exact ih h

def awaitN (n : Nat) : Nat → Except PyErr Event → Status RawReader.Status → List Bytes → Option (Except PyErr Event × Source (Status RawReader.Status))
  | 0, _, _, _ => none
  | i + 1, r, st, cs => match r with
    | .error err => some (.error err, .dead)
    | .ok e =>
      if e.eventType.isStreamSignal then
        match cs with
        | [] =>
          if e.eventType = .incomplete then (managedN n st .next).bind fun p => awaitN n i p.1 p.2 []
          else some (.ok streamEnd, .ended)
        | d :: ds => (managedN n st (.data d)).bind fun p => awaitN n i p.1 p.2 ds
      else some (.ok e, .active st cs)

theorem awaitN_sound {n : Nat} : ∀ {i : Nat} {r : Except PyErr Event} {st : Status RawReader.Status} {cs : List Bytes} {o : Except PyErr Event × Source (Status RawReader.Status)},
    awaitN n i r st cs = some o → awaitEvent bstep r st cs = some o := by
  intro i
  induction i with
  | zero => intro r st cs o h; cases h
  | succ i ih =>
    intro r st cs o h
    rw [awaitEvent.eq_def]
    unfold awaitN at h
    cases r with
    | error err => exact h
    | ok e =>
      dsimp only at h ⊢
      split
      · rename_i hs
        rw [if_pos hs] at h
        cases cs with
        | nil =>
          dsimp only at h ⊢
          split
          · rename_i hi
            rw [if_pos hi, Option.bind_eq_some_iff] at h
            obtain ⟨p, h1, h2⟩ := h
            rw [managedN_sound h1]
            exact ih h2
          · rename_i hi
            rw [if_neg hi] at h
            exact h
        | cons d ds =>
          dsimp only at h ⊢
          rw [Option.bind_eq_some_iff] at h
          obtain ⟨p, h1, h2⟩ := h
          rw [managedN_sound h1]
          exact ih h2
      · rename_i hs
        rw [if_neg hs] at h
        exact h

def binaryNextN (n : Nat) : Source (Status RawReader.Status) → Option (Except PyErr Event × Source (Status RawReader.Status))
  | .active r cs => (managedN n r .next).bind fun p => awaitN n n p.1 p.2 cs
  | .ended => some (.error .stopIteration, .dead)
  | .dead => some (.error .stopIteration, .dead)

theorem binaryNextN_sound {n : Nat} {src : Source (Status RawReader.Status)} {o : Except PyErr Event × Source (Status RawReader.Status)} (h : binaryNextN n src = some o) : nextEvent bstep src = some o := by
  cases src with
  | ended => exact h
  | dead => exact h
  | active r cs =>
    simp only [binaryNextN, Option.bind_eq_some_iff] at h
    obtain ⟨p, h1, h2⟩ := h
    simp only [nextEvent]
    rw [managedN_sound h1]
    exact awaitN_sound h2

def binaryLoopN (n : Nat) : Nat → IonEventType → Out → Source (Status RawReader.Status) → Option (Except PyErr (Out × Source (Status RawReader.Status)))
  | 0, _, _, _ => none
  | i + 1, endType, out, src => (binaryNextN n src).bind fun p =>
    match p.1 with
    | .error err => some (.error err)
    | .ok e =>
      if e.eventType = endType then some (.ok (out, p.2))
      else if e.eventType = .containerStart then
        match newContainer e with
        | .error err => some (.error err)
        | .ok c => (binaryLoopN n i .containerEnd c.1 p.2).bind fun q =>
          match q with
          | .error err => some (.error err)
          | .ok q => match out.add e (q.1.obj c.2.1 c.2.2) with
            | .error err => some (.error err)
            | .ok out' => binaryLoopN n i endType out' q.2
      else if e.eventType = .scalar then
        match scalarObj e with
        | .error err => some (.error err)
        | .ok o => match out.add e o with
          | .error err => some (.error err)
          | .ok out' => binaryLoopN n i endType out' p.2
      else binaryLoopN n i endType out p.2

theorem binaryLoopN_sound {n : Nat} : ∀ {i : Nat} {ty : IonEventType} {out : Out} {src : Source (Status RawReader.Status)} {r : Except PyErr (Out × Source (Status RawReader.Status))},
    binaryLoopN n i ty out src = some r → loadLoop bstep ty out src = some r := by
  intro i
  induction i with
  | zero => intro ty out src r h; cases h
  | succ i ih =>
    intro ty out src r h
    rw [loadLoop]
    unfold binaryLoopN at h
    rw [Option.bind_eq_some_iff] at h
    obtain ⟨⟨a, src'⟩, h1, h⟩ := h
    rw [binaryNextN_sound h1]
    simp only [Option.bind_eq_bind, Option.bind_some]
    cases a with
    | error err => exact h
    | ok e =>
      dsimp only at h ⊢
      split
      · rename_i hc; rw [if_pos hc] at h; exact h
      · rename_i hc
        rw [if_neg hc] at h
        split
        · rename_i hc
          rw [if_pos hc] at h
          cases hx : newContainer e with
          | error err => rw [hx] at h; exact h
          | ok c =>
            rw [hx] at h
            dsimp only at h ⊢
            rw [Option.bind_eq_some_iff] at h
            obtain ⟨q, h2, h⟩ := h
            rw [ih h2]
            simp only [Option.bind_some]
            cases q with
            | error err => exact h
            | ok q =>
              dsimp only at h ⊢
              cases ha : out.add e (q.1.obj c.2.1 c.2.2) with
              | error err => rw [ha] at h; exact h
              | ok out' => rw [ha] at h; exact ih h
        · rename_i hc
          rw [if_neg hc] at h
          split
          · rename_i hc
            rw [if_pos hc] at h
            cases hx : scalarObj e with
            | error err => rw [hx] at h; exact h
            | ok o =>
              rw [hx] at h
              dsimp only at h ⊢
              cases ha : out.add e o with
              | error err => rw [ha] at h; exact h
              | ok out' => rw [ha] at h; exact ih h
          · rename_i hc
            rw [if_neg hc] at h
            exact ih h

/-- The exception that `load` raises, computed. -/
def binaryErrN (n : Nat) (catalog : Catalog) (cs : List Bytes) : Option PyErr :=
  (binaryLoopN n n .streamEnd (.list []) (.active (ManagedReader.init catalog) cs)).bind fun r => match r with
    | .error err => some err
    | .ok _ => none

theorem binaryErrN_sound {n : Nat} {catalog : Catalog} {cs : List Bytes} {err : PyErr} (h : binaryErrN n catalog cs = some err) (single : Bool) : loadBinary catalog single cs = some (.error err) := by
  unfold binaryErrN at h
  rw [Option.bind_eq_some_iff] at h
  obtain ⟨r, h1, h2⟩ := h
  unfold loadBinary loadFrom
  rw [show loadLoop (ManagedReader.send RawReader.send) .streamEnd (.list []) (.active (ManagedReader.init catalog) cs) = some r from binaryLoopN_sound h1]
  cases r with
  | error e => cases h2; rfl
  | ok p => cases h2

end Ion.Simple
